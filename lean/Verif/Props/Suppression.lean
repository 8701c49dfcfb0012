import Verif.Lemmas.Collector
/-!
# C08, C09, C10, C12: suppression comments
-/
namespace Jarl
open Spec

/-! ### What the collector holds, in terms of the tree -/

theorem comment_visit_iff {root : SynNode} {source : Str} {c : Comment} {x : DirectiveParse} {P : Range → Bool → Bool → Nat → Prop}
    (hx : parseCommentDirective c.text = some x) (hh : isQuartoHeader c.text = false) :
    (∃ nr af tr lv, Visit.comment c nr af tr lv ∈ visitNode source true 0 root ∧ P nr af tr lv) ↔
    (∃ n f l, Reach root f l n ∧
      ((c ∈ n.leading ∧ P n.range f false l) ∨
       (c ∈ n.trailing ∧ P n.range false (isSameLineAsCode c.range source) l) ∨
       (c ∈ n.dangling ∧ P n.range false false l))) := by
  constructor
  · rintro ⟨nr, af, tr, lv, hm, hP⟩
    obtain ⟨n, f, l, hr, hv⟩ := mem_visits.mp hm
    refine ⟨n, f, l, hr, ?_⟩
    unfold ownVisits at hv
    rcases List.mem_append.mp hv with hv | hv
    · rcases List.mem_append.mp hv with hv | hv
      · obtain ⟨rfl, rfl, rfl, rfl, hc, _⟩ := leading_comment_flags hv
        exact .inl ⟨hc, hP⟩
      · obtain ⟨d, hd, he⟩ := List.mem_map.mp hv
        cases he
        exact .inr (.inl ⟨hd, hP⟩)
    · obtain ⟨d, hd, he⟩ := List.mem_map.mp hv
      cases he
      exact .inr (.inr ⟨hd, hP⟩)
  · rintro ⟨n, f, l, hr, h⟩
    have into : ∀ v, v ∈ ownVisits source f l n → v ∈ visitNode source true 0 root :=
      fun v hv => mem_visits.mpr ⟨n, f, l, hr, hv⟩
    rcases h with ⟨hc, hP⟩ | ⟨hc, hP⟩ | ⟨hc, hP⟩
    · refine ⟨_, _, _, _, into _ ?_, hP⟩
      unfold ownVisits
      simp only [List.mem_append]
      exact .inl (.inl ((mem_leading_comment hx hh).mpr hc))
    · refine ⟨_, _, _, _, into _ ?_, hP⟩
      unfold ownVisits
      simp only [List.mem_append]
      exact .inl (.inr (List.mem_map.mpr ⟨c, hc, rfl⟩))
    · refine ⟨_, _, _, _, into _ ?_, hP⟩
      unfold ownVisits
      simp only [List.mem_append]
      exact .inr (List.mem_map.mpr ⟨c, hc, rfl⟩)

theorem valid_not_header {t : Str} {d : LintDirective} (h : parseCommentDirective t = some (.valid d)) :
    isQuartoHeader t = false := by
  cases hh : isQuartoHeader t with
  | false => rfl
  | true => rw [header_parse hh] at h; cases h

theorem node_source {root : SynNode} {source : Str} {ns : NodeSuppression} :
    ns ∈ (visitNode source true 0 root).filterMap nodeOf ↔
    ∃ n f l c, Reach root f l n ∧ OwnLineComment source n c ∧ ValidComment c.text (.ignore ns.rule) ∧
      ns.nodeRange = n.range ∧ ns.comment = c.range := by
  rw [List.mem_filterMap]
  constructor
  · rintro ⟨v, hv, hn⟩
    unfold nodeOf at hn
    split at hn
    · rename_i c nr af lv
      split at hn
      · rename_i r hp
        cases hn
        have := (comment_visit_iff (P := fun nr' af' tr' lv' => nr' = nr ∧ tr' = false) hp (valid_not_header hp)).mp
          ⟨nr, af, false, lv, hv, rfl, rfl⟩
        obtain ⟨n, f, l, hr, h⟩ := this
        rcases h with ⟨hc, h1, _⟩ | ⟨hc, h1, h2⟩ | ⟨hc, h1, _⟩
        · exact ⟨n, f, l, c, hr, .inl hc, C11_valid.mp hp, h1.symm, rfl⟩
        · exact ⟨n, f, l, c, hr, .inr (.inl ⟨hc, sameLine_false.mp h2⟩), C11_valid.mp hp, h1.symm, rfl⟩
        · exact ⟨n, f, l, c, hr, .inr (.inr hc), C11_valid.mp hp, h1.symm, rfl⟩
      · cases hn
    · cases hn
  · rintro ⟨n, f, l, c, hr, hc, hv, h1, h2⟩
    have hp := C11_valid.mpr hv
    have := (comment_visit_iff (root := root) (source := source)
      (P := fun nr' af' tr' lv' => nr' = n.range ∧ tr' = false) hp (valid_not_header hp)).mpr (by
        refine ⟨n, f, l, hr, ?_⟩
        rcases hc with hc | ⟨hc, h⟩ | hc
        · exact .inl ⟨hc, rfl, rfl⟩
        · exact .inr (.inl ⟨hc, rfl, sameLine_false.mpr h⟩)
        · exact .inr (.inr ⟨hc, rfl, rfl⟩))
    obtain ⟨nr, af, tr, lv, hm, rfl, rfl⟩ := this
    refine ⟨_, hm, ?_⟩
    simp only [nodeOf, hp]
    cases ns
    simp only at h1 h2 ⊢
    rw [h1, h2]

theorem file_source {root : SynNode} {source : Str} {r : Rule} {rg : Range} :
    (r, rg) ∈ (visitNode source true 0 root).filterMap fileOf ↔
    ∃ n l c, Reach root true l n ∧ c ∈ n.leading ∧ ValidComment c.text (.ignoreFile r) ∧ c.range = rg := by
  rw [List.mem_filterMap]
  constructor
  · rintro ⟨v, hv, hn⟩
    unfold fileOf at hn
    split at hn
    · rename_i c nr lv
      split at hn
      · rename_i r' hp
        cases hn
        have := (comment_visit_iff (P := fun nr' af' tr' lv' => af' = true) hp (valid_not_header hp)).mp
          ⟨nr, true, false, lv, hv, rfl⟩
        obtain ⟨n, f, l, hr, h⟩ := this
        rcases h with ⟨hc, rfl⟩ | ⟨_, h⟩ | ⟨_, h⟩
        · exact ⟨n, l, c, hr, hc, C11_valid.mp hp, rfl⟩
        · cases h
        · cases h
      · cases hn
    · cases hn
  · rintro ⟨n, l, c, hr, hc, hv, rfl⟩
    have hp := C11_valid.mpr hv
    have := (comment_visit_iff (root := root) (source := source)
      (P := fun nr' af' tr' lv' => af' = true ∧ tr' = false) hp (valid_not_header hp)).mpr
        ⟨n, true, l, hr, .inl ⟨hc, rfl, rfl⟩⟩
    obtain ⟨nr, af, tr, lv, hm, rfl, rfl⟩ := this
    exact ⟨_, hm, by simp [fileOf, hp]⟩

theorem arrayItem_valid {t : Str} {r : Rule} : arrayItem t = some (.valid (.ignoreChunk r)) ↔ ValidItem t r := by
  have : parseQuartoItem t = some (.valid (.ignoreChunk r)) ↔ ValidItem t r := by
    rw [C11_array_item]
    constructor
    · rintro ⟨r', h, h'⟩; cases h; exact h'
    · intro h; exact ⟨r, rfl, h⟩
  rw [← this]
  unfold arrayItem
  split <;> rename_i h <;> simp_all

theorem chunk_source {root : SynNode} {source : Str} {r : Rule} {rg : Range} :
    (r, rg) ∈ (visitNode source true 0 root).filterMap chunkOf ↔
    ∃ n f l pre h items c post, Reach root f l n ∧ n.leading = pre ++ h :: items ++ c :: post ∧
      (∃ w1 w2, Blank w1 ∧ Blank w2 ∧ h.text = w1 ++ cs! "#| jarl-ignore-chunk:" ++ w2) ∧
      (∀ i ∈ items, IsItem i.text) ∧ ValidItem c.text r ∧ c.range = rg := by
  rw [List.mem_filterMap]
  constructor
  · rintro ⟨v, hv, hn⟩
    unfold chunkOf at hn
    split at hn
    · cases hn
      obtain ⟨n, f, l, hr, hv⟩ := mem_visits.mp hv
      unfold ownVisits at hv
      simp only [List.mem_append, List.mem_map] at hv
      rcases hv with (hv | ⟨_, _, h⟩) | ⟨_, _, h⟩
      · obtain ⟨c, h1, h2, ⟨pre, h, items, post, h3, h4, h5⟩ | ⟨h, _⟩⟩ := mem_leading_item.mp hv
        · exact ⟨n, f, l, pre, h, items, c, post, hr, h3, C11_array_header.mp h4, h5, arrayItem_valid.mp h2, h1⟩
        · cases h
      · cases h
      · cases h
    · cases hn
  · rintro ⟨n, f, l, pre, h, items, c, post, hr, h1, h2, h3, h4, rfl⟩
    refine ⟨.item (.valid (.ignoreChunk r)) c.range, mem_visits.mpr ⟨n, f, l, hr, ?_⟩, rfl⟩
    unfold ownVisits
    simp only [List.mem_append]
    exact .inl (.inl (mem_leading_item.mpr ⟨c, rfl, arrayItem_valid.mpr h4, .inl ⟨pre, h, items, post, h1,
      C11_array_header.mpr h2, h3⟩⟩))

/-! ### Filtering -/

theorem find_map_isSome {α β} {l : List α} {p : α → Bool} {f : α → β} :
    ((l.find? p).map f).isSome = true ↔ ∃ x ∈ l, p x = true := by
  rw [Option.isSome_map, List.find?_isSome]

theorem suppressedBy_find (m : Manager) (d : Diagnostic) :
    suppressedBy m d = ((suppressions m).find? (fun s => s.covers d)).map (·.comment) := by
  unfold suppressedBy suppressions
  have hname : ∀ r : Rule, (Rule.fromName d.name = none → (decide (r.name = d.name)) = false) := by
    intro r h
    simpa using Rule.fromName_eq_none.mp h r
  have hname2 : ∀ r rule : Rule, Rule.fromName d.name = some rule → (decide (r.name = d.name)) = decide (r = rule) := by
    intro r rule h
    have h := Rule.fromName_eq_some.mp h
    rw [← h]
    by_cases hr : r = rule
    · simp [hr]
    · simp only [hr, decide_false, decide_eq_false_iff_not]
      exact fun hn => hr (Rule.name_inj hn)
  simp only [List.find?_append, List.find?_map]
  cases hf : Rule.fromName d.name with
  | none =>
    have e1 : ∀ {α} (l : List α) (g : α → Rule), l.find? (fun s => decide ((g s).name = d.name)) = none := by
      intro α l g; rw [List.find?_eq_none]; intro x _; simp [hname (g x) hf]
    have e2 : ∀ {α} (l : List α) (g : α → Rule) (q : α → Bool), l.find? (fun s => decide ((g s).name = d.name) && q s) = none := by
      intro α l g q; rw [List.find?_eq_none]; intro x _; simp [hname (g x) hf]
    simp only [Function.comp_def]
    rw [e1 m.file (·.1), e1 m.chunk (·.1), e2 m.regions (·.rule), e2 m.node (·.rule)]
    rfl
  | some rule =>
    simp only [Function.comp_def, hname2 _ _ hf]
    cases List.find? (fun s : Rule × Range => decide (s.1 = rule)) m.file <;>
    cases List.find? (fun s : Rule × Range => decide (s.1 = rule)) m.chunk <;>
    cases List.find? (fun s : SkipRegion => decide (s.rule = rule) && s.range.contains d.range) m.regions <;>
    cases List.find? (fun s : NodeSuppression => decide (s.rule = rule) && s.nodeRange.contains d.range) m.node <;>
    rfl

theorem filterLoop_eq (m : Manager) (ds : List Diagnostic) (used : List Range) :
    (filterLoop m ds used).1 = ds.filter (fun d => (suppressedBy m d).isNone) ∧
    ∀ c, c ∈ (filterLoop m ds used).2 ↔ c ∈ used ∨ ∃ d ∈ ds, suppressedBy m d = some c := by
  induction ds generalizing used with
  | nil => simp [filterLoop]
  | cons d ds ih =>
    unfold filterLoop
    cases h : suppressedBy m d with
    | none =>
      simp only [List.filter_cons, h, Option.isNone_none, if_true]
      refine ⟨by rw [(ih used).1], fun c => ?_⟩
      rw [(ih used).2]
      simp [h]
    | some x =>
      simp only [List.filter_cons, h, Option.isNone_some, Bool.false_eq_true, if_false]
      refine ⟨(ih _).1, fun c => ?_⟩
      rw [(ih _).2]
      simp only [List.mem_cons, exists_eq_or_imp, h, Option.some.injEq]
      constructor
      · rintro ((rfl | h) | h)
        · exact .inr (.inl rfl)
        · exact .inl h
        · exact .inr (.inr h)
      · rintro (h | rfl | h)
        · exact .inl (.inr h)
        · exact .inl (.inl rfl)
        · exact .inr h

/-- In a manager built from comments, the fast-path flag is only off when there is nothing to consult. -/
theorem collect_hasAny {root : SynNode} {source : Str} {m : Manager} (h : collect root source = some m)
    (hf : m.hasAny = false) : suppressions m = [] := by
  unfold collect at h
  cases hr : runVisits {} (visitNode source true 0 root) with
  | none => rw [hr] at h; cases h
  | some col =>
    rw [hr] at h
    cases h
    have rf := run_fields hr
    simp only [Collector.finish, Bool.or_eq_false_iff, Bool.not_eq_false', List.isEmpty_iff] at hf
    obtain ⟨⟨⟨h1, h2⟩, h3⟩, h4⟩ := hf
    have h5 : col.node = [] := by
      rw [rf.node]
      simp only [List.nil_append]
      rw [List.filterMap_eq_nil_iff]
      intro v hv
      have : validOf v = false := by
        have hv' := rf.valid
        rw [h4] at hv'
        have := (Bool.or_eq_false_iff.mp hv'.symm).2
        rw [List.any_eq_false] at this
        simpa using this v hv
      cases hn : nodeOf v with
      | none => rfl
      | some ns =>
        exfalso
        unfold nodeOf at hn
        split at hn
        · rename_i c nr af lv
          split at hn
          · rename_i r hp
            simp [validOf, hp] at this
          · cases hn
        · cases hn
    simp only [suppressions, Collector.finish, h1, h2, h3, h5, List.map_nil, List.append_nil]

theorem filterDiagnostics_eq {m : Manager} (hm : m.hasAny = false → suppressions m = []) (ds : List Diagnostic) :
    (filterDiagnostics m ds).1 = ds.filter (fun d => (suppressedBy m d).isNone) ∧
    ∀ c, c ∈ (filterDiagnostics m ds).2 ↔ ∃ d ∈ ds, suppressedBy m d = some c := by
  unfold filterDiagnostics
  split
  · rename_i h
    have hnil := hm (by simpa using h)
    have hs : ∀ d, suppressedBy m d = none := by
      intro d; rw [suppressedBy_find, hnil]; rfl
    refine ⟨?_, fun c => by simp [hs]⟩
    exact (List.filter_eq_self.mpr (fun d _ => by simp [hs])).symm
  · have := filterLoop_eq m ds []
    refine ⟨this.1, fun c => ?_⟩
    rw [this.2]; simp

/-- **C09 (filter fast path).** When no valid directive was found, skipping the filter changes nothing: the slow
path would keep every diagnostic and mark nothing as used. -/
theorem C09_filter_fast_path {root : SynNode} {source : Str} {m : Manager} (h : collect root source = some m)
    (ds : List Diagnostic) : filterDiagnostics m ds = filterLoop m ds [] := by
  unfold filterDiagnostics
  split
  · rename_i hf
    have hnil := collect_hasAny h (by simpa using hf)
    have hs : ∀ d, suppressedBy m d = none := by
      intro d; rw [suppressedBy_find, hnil]; rfl
    induction ds with
    | nil => rfl
    | cons d ds ih =>
      unfold filterLoop
      rw [hs d]
      simp only
      rw [← ih]
  · rfl

/-- A comment that means anything to jarl mentions `jarl-ignore`. -/
theorem parse_mentions {t : Str} {x : DirectiveParse} (h : parseCommentDirective t = some x) :
    ∃ a b, t = a ++ cs! "jarl-ignore" ++ b := by
  obtain ⟨w, m, p, rest, _, _, h3, _⟩ := parseComment_iff.mp h
  exact ⟨w ++ m, rest, h3⟩

/-- **C09 (collection fast path).** If the source does not contain `jarl-ignore`, processing all comments gives
the same (empty) result as not looking at them. -/
theorem C09_collect_fast_path {root : SynNode} {source : Str} (hc : CommentsFromSource root source)
    (hs : ¬ ∃ a b, source = a ++ cs! "jarl-ignore" ++ b) :
    collect root source = some {} ∧ fromNode root source = some {} := by
  have hnone : ∀ n f l c, Reach root f l n → (c ∈ n.leading ∨ c ∈ n.trailing ∨ c ∈ n.dangling) →
      parseCommentDirective c.text = none := by
    intro n f l c hr hm
    cases hp : parseCommentDirective c.text with
    | none => rfl
    | some x =>
      exfalso
      obtain ⟨a, b, hab⟩ := hc n f l c hr hm
      obtain ⟨a', b', h'⟩ := parse_mentions hp
      exact hs ⟨a ++ a', b' ++ b, by rw [hab, h']; simp⟩
  have hall : ∀ v ∈ visitNode source true 0 root, ∃ c nr af tr lv, v = .comment c nr af tr lv ∧
      parseCommentDirective c.text = none := by
    intro v hv
    obtain ⟨n, f, l, hr, hv⟩ := mem_visits.mp hv
    have hnoh : ∀ c ∈ n.leading, isQuartoHeader c.text = false := by
      intro c hc'
      cases hh : isQuartoHeader c.text with
      | false => rfl
      | true =>
        have := header_parse hh
        rw [hnone n f l c hr (.inl hc')] at this
        cases this
    have hlead : ∀ cs : List Comment, (∀ c ∈ cs, isQuartoHeader c.text = false) →
        leadingVisits n.range f l none cs = cs.map (fun c => .comment c n.range f false l) := by
      intro cs
      induction cs with
      | nil => intro _; rfl
      | cons c cs ih =>
        intro h
        simp only [leadingVisits, h c (by simp), Bool.false_eq_true, if_false, List.map_cons]
        rw [ih (fun d hd => h d (by simp [hd]))]
    unfold ownVisits at hv
    rw [hlead _ hnoh] at hv
    simp only [List.mem_append, List.mem_map] at hv
    rcases hv with (⟨c, hc', rfl⟩ | ⟨c, hc', rfl⟩) | ⟨c, hc', rfl⟩
    · exact ⟨c, _, _, _, _, rfl, hnone n f l c hr (.inl hc')⟩
    · exact ⟨c, _, _, _, _, rfl, hnone n f l c hr (.inr (.inl hc'))⟩
    · exact ⟨c, _, _, _, _, rfl, hnone n f l c hr (.inr (.inr hc'))⟩
  have hrun : ∀ (vs : List Visit) (col : Collector), (∀ v ∈ vs, ∃ c nr af tr lv, v = .comment c nr af tr lv ∧
      parseCommentDirective c.text = none) → runVisits col vs = some col := by
    intro vs
    induction vs with
    | nil => intro col _; rfl
    | cons v vs ih =>
      intro col h
      obtain ⟨c, nr, af, tr, lv, rfl, hp⟩ := h v (by simp)
      simp only [runVisits, applyVisit, processComment, hp]
      exact ih col (fun w hw => h w (by simp [hw]))
  constructor
  · unfold collect
    rw [hrun _ _ hall]
    rfl
  · unfold fromNode
    have : containsSub (cs! "jarl-ignore") source = false := by
      cases h : containsSub (cs! "jarl-ignore") source with
      | false => rfl
      | true => exact absurd (containsSub_iff.mp h) hs
    rw [this]
    rfl

/-- `from_node` always gives what processing all comments gives. -/
theorem fromNode_eq_collect {root : SynNode} {source : Str} (hc : CommentsFromSource root source) :
    fromNode root source = collect root source := by
  by_cases h : ∃ a b, source = a ++ cs! "jarl-ignore" ++ b
  · unfold fromNode
    rw [containsSub_iff.mpr h]
    rfl
  · obtain ⟨h1, h2⟩ := C09_collect_fast_path hc h
    rw [h1, h2]

/-! ### C12 -/

/-- **C12 (regions).** The region suppressions are exactly the pairs of a start comment and the end comment that
follows it immediately among the start/end comments of the same rule and nesting level. -/
theorem C12_regions {root : SynNode} {source : Str} {m : Manager} (h : collect root source = some m) (reg : SkipRegion) :
    reg ∈ m.regions ↔ ∃ a b, RegionPair root source reg.rule a b ∧ reg.range = ⟨a.start, b.stop⟩ ∧ reg.comment = a := by
  unfold collect at h
  rcases region_inv (visitNode source true 0 root) with ⟨col, hcol, inv⟩ | ⟨hn, _⟩
  · rw [hcol] at h
    cases h
    show reg ∈ col.regions ↔ _
    rw [inv.regions]
    simp only [evs_eq]
    constructor
    · rintro ⟨l, a, b, ⟨pre, post, hp⟩, h1, h2⟩; exact ⟨a, b, ⟨l, pre, post, hp⟩, h1, h2⟩
    · rintro ⟨a, b, ⟨l, pre, post, hp⟩, h1, h2⟩; exact ⟨l, a, b, ⟨pre, post, hp⟩, h1, h2⟩
  · rw [hn] at h; cases h

/-- **C12 (unmatched end).** An end comment is reported exactly when the previous start/end comment of its rule and
level is not a start. -/
theorem C12_unmatched_end {root : SynNode} {source : Str} {m : Manager} (h : collect root source = some m) (c : Range) :
    c ∈ m.unmatchedEnd ↔ ∃ r level pre post, regionEvents root source r level = pre ++ (false, c) :: post ∧
      ¬ ∃ q a, pre = q ++ [(true, a)] := by
  unfold collect at h
  rcases region_inv (visitNode source true 0 root) with ⟨col, hcol, inv⟩ | ⟨hn, _⟩
  · rw [hcol] at h
    cases h
    show c ∈ col.unmatchedEnd ↔ _
    rw [inv.ends]
    simp only [evs_eq]
    have hpend : ∀ pre : List (Bool × Range), pending pre = none ↔ ¬ ∃ q a, pre = q ++ [(true, a)] := by
      intro pre
      constructor
      · rintro hn ⟨q, a, h⟩
        rw [pending_eq.mpr ⟨q, h⟩] at hn; cases hn
      · intro hn
        cases hp : pending pre with
        | none => rfl
        | some a => obtain ⟨q, hq⟩ := pending_eq.mp hp; exact absurd ⟨q, a, hq⟩ hn
    constructor
    · rintro ⟨k, pre, post, h1, h2⟩; exact ⟨k.1, k.2, pre, post, h1, (hpend pre).mp h2⟩
    · rintro ⟨r, l, pre, post, h1, h2⟩; exact ⟨(r, l), pre, post, h1, (hpend pre).mpr h2⟩
  · rw [hn] at h; cases h

/-- **C12 (unmatched start).** A start comment is reported exactly when it is the last start/end comment of its rule
and level. -/
theorem C12_unmatched_start {root : SynNode} {source : Str} {m : Manager} (h : collect root source = some m) (c : Range) :
    c ∈ m.unmatchedStart ↔ ∃ r level pre, regionEvents root source r level = pre ++ [(true, c)] := by
  unfold collect at h
  rcases region_inv (visitNode source true 0 root) with ⟨col, hcol, inv⟩ | ⟨hn, _⟩
  · rw [hcol] at h
    cases h
    show c ∈ col.starts.map (·.2) ↔ _
    rw [List.mem_map]
    constructor
    · rintro ⟨⟨k, x⟩, hk, rfl⟩
      rw [mem_iff_getKey inv.nodup, inv.starts, evs_eq] at hk
      obtain ⟨pre, hp⟩ := pending_eq.mp hk
      exact ⟨k.1, k.2, pre, hp⟩
    · rintro ⟨r, l, pre, hp⟩
      refine ⟨((r, l), c), ?_, rfl⟩
      rw [mem_iff_getKey inv.nodup, inv.starts, evs_eq]
      exact pending_eq.mpr ⟨pre, hp⟩
  · rw [hn] at h; cases h

/-- **C12 (crash).** Collecting the comments panics exactly when an end comment that closes a region ends before
the start comment begins. -/
theorem C12_panics_iff {root : SynNode} {source : Str} :
    collect root source = none ↔ ∃ r a b, RegionPair root source r a b ∧ b.stop < a.start := by
  unfold collect
  rcases region_inv (visitNode source true 0 root) with ⟨col, hcol, inv⟩ | ⟨hn, k, a, b, ⟨pre, post, hp⟩, hlt⟩
  · rw [hcol]
    constructor
    · intro h; cases h
    · rintro ⟨r, a, b, ⟨l, pre, post, hp⟩, hlt⟩
      have := inv.ordered (r, l) a b ⟨pre, post, by rw [evs_eq]; exact hp⟩
      omega
  · rw [hn]
    rw [evs_eq] at hp
    exact ⟨fun _ => ⟨k.1, a, b, ⟨k.2, pre, post, hp⟩, hlt⟩, fun _ => rfl⟩

/-! ### C08 -/

/-- **C08.** After suppression filtering exactly the diagnostics that no suppression comment covers remain, in order
and unchanged. -/
theorem C08_hidden_iff_suppressed {root : SynNode} {source : Str} {m : Manager} (hc : CommentsFromSource root source)
    (h : fromNode root source = some m) (ds : List Diagnostic) :
    ∃ keep : Diagnostic → Bool, (∀ d, keep d = true ↔ ¬ Hidden root source d) ∧
      (filterDiagnostics m ds).1 = ds.filter keep := by
  rw [fromNode_eq_collect hc] at h
  refine ⟨fun d => (suppressedBy m d).isNone, ?_, (filterDiagnostics_eq (collect_hasAny h) ds).1⟩
  intro d
  have key : (suppressedBy m d).isSome = true ↔ Hidden root source d := by
    rw [suppressedBy_find, find_map_isSome]
    have hreg := C12_regions h
    unfold collect at h
    cases hr : runVisits {} (visitNode source true 0 root) with
    | none => rw [hr] at h; cases h
    | some col =>
      rw [hr] at h
      cases h
      have rf := run_fields hr
      have e1 : col.file = (visitNode source true 0 root).filterMap fileOf := by rw [rf.file]; rfl
      have e2 : col.chunk = (visitNode source true 0 root).filterMap chunkOf := by rw [rf.chunk]; rfl
      have e3 : col.node = (visitNode source true 0 root).filterMap nodeOf := by rw [rf.node]; rfl
      unfold suppressions Hidden
      simp only [List.mem_append, List.mem_map]
      constructor
      · rintro ⟨s, hs, hcov⟩
        rcases hs with ((⟨⟨r, rg⟩, hm, rfl⟩ | ⟨⟨r, rg⟩, hm, rfl⟩) | ⟨reg, hm, rfl⟩) | ⟨ns, hm, rfl⟩
        · refine ⟨r, by simpa using hcov, .inl ?_⟩
          rw [show col.finish.file = col.file from rfl, e1] at hm
          obtain ⟨n, l, c, h1, h2, h3, _⟩ := file_source.mp hm
          exact ⟨n, l, c, h1, h2, h3⟩
        · refine ⟨r, by simpa using hcov, .inr (.inl ?_)⟩
          rw [show col.finish.chunk = col.chunk from rfl, e2] at hm
          obtain ⟨n, f, l, pre, hh, items, c, post, h1, h2, h3, h4, h5, _⟩ := chunk_source.mp hm
          exact ⟨n, f, l, pre, hh, items, c, post, h1, h2, h3, h4, h5⟩
        · simp only [Bool.and_eq_true, decide_eq_true_eq, Range.contains] at hcov
          obtain ⟨a, b, hp, hrg, _⟩ := (hreg reg).mp hm
          refine ⟨reg.rule, hcov.1, .inr (.inr (.inl ⟨a, b, hp, ?_, ?_⟩))⟩
          · have := hcov.2.1; rw [hrg] at this; exact this
          · have := hcov.2.2; rw [hrg] at this; exact this
        · simp only [Bool.and_eq_true, decide_eq_true_eq, Range.contains] at hcov
          rw [show col.finish.node = col.node from rfl, e3] at hm
          obtain ⟨n, f, l, c, h1, h2, h3, h4, _⟩ := node_source.mp hm
          rw [h4] at hcov
          exact ⟨ns.rule, hcov.1, .inr (.inr (.inr ⟨n, f, l, c, h1, h2, h3, hcov.2.1, hcov.2.2⟩))⟩
      · rintro ⟨r, hname, hcase⟩
        rcases hcase with ⟨n, l, c, h1, h2, h3⟩ | ⟨n, f, l, pre, hh, items, c, post, h1, h2, h3, h4, h5⟩ |
          ⟨a, b, hp, h1, h2⟩ | ⟨n, f, l, c, h1, h2, h3, h4, h5⟩
        · refine ⟨_, .inl (.inl (.inl ⟨(r, c.range), ?_, rfl⟩)), by simpa using hname⟩
          rw [show col.finish.file = col.file from rfl, e1]
          exact file_source.mpr ⟨n, l, c, h1, h2, h3, rfl⟩
        · refine ⟨_, .inl (.inl (.inr ⟨(r, c.range), ?_, rfl⟩)), by simpa using hname⟩
          rw [show col.finish.chunk = col.chunk from rfl, e2]
          exact chunk_source.mpr ⟨n, f, l, pre, hh, items, c, post, h1, h2, h3, h4, h5, rfl⟩
        · refine ⟨_, .inl (.inr ⟨⟨⟨a.start, b.stop⟩, r, a⟩, (hreg _).mpr ⟨a, b, hp, rfl, rfl⟩, rfl⟩), ?_⟩
          simp [Range.contains, hname, h1, h2]
        · refine ⟨_, .inr ⟨⟨n.range, r, c.range⟩, ?_, rfl⟩, ?_⟩
          · rw [show col.finish.node = col.node from rfl, e3]
            exact node_source.mpr ⟨n, f, l, c, h1, h2, h3, rfl, rfl⟩
          · simp [Range.contains, hname, h4, h5]
  rw [← key]
  show (suppressedBy m d).isNone = true ↔ _
  cases suppressedBy m d <;> simp

/-- The rules of a manager's file suppressions. -/
theorem file_suppressed_iff {root : SynNode} {source : Str} {m : Manager} (h : collect root source = some m) (r : Rule) :
    (∃ rg, (r, rg) ∈ m.file) ↔ FileSuppressed root r := by
  unfold collect at h
  cases hr : runVisits {} (visitNode source true 0 root) with
  | none => rw [hr] at h; cases h
  | some col =>
    rw [hr] at h
    cases h
    have e1 : col.file = (visitNode source true 0 root).filterMap fileOf := by rw [(run_fields hr).file]; rfl
    rw [show col.finish.file = col.file from rfl, e1]
    constructor
    · rintro ⟨rg, hm⟩
      obtain ⟨n, l, c, h1, h2, h3, _⟩ := file_source.mp hm
      exact ⟨n, l, c, h1, h2, h3⟩
    · rintro ⟨n, l, c, h1, h2, h3⟩
      exact ⟨c.range, file_source.mpr ⟨n, l, c, h1, h2, h3, rfl⟩⟩

/-- Without its file suppressions, a manager hides what the other comments cover. -/
theorem hiddenLocal_iff {root : SynNode} {source : Str} {m : Manager} (h : collect root source = some m)
    (d : Diagnostic) (m' : Manager) (hf : m'.file = []) (hc : m'.chunk = m.chunk) (hr : m'.regions = m.regions)
    (hn : m'.node = m.node) : (suppressedBy m' d).isSome = true ↔ HiddenLocal root source d := by
  rw [suppressedBy_find, find_map_isSome]
  have hreg := C12_regions h
  unfold collect at h
  cases hrun : runVisits {} (visitNode source true 0 root) with
  | none => rw [hrun] at h; cases h
  | some col =>
    rw [hrun] at h
    cases h
    have rf := run_fields hrun
    have e2 : col.chunk = (visitNode source true 0 root).filterMap chunkOf := by rw [rf.chunk]; rfl
    have e3 : col.node = (visitNode source true 0 root).filterMap nodeOf := by rw [rf.node]; rfl
    unfold suppressions HiddenLocal
    rw [hf, hc, hr, hn]
    simp only [List.mem_append, List.mem_map, List.map_nil, List.not_mem_nil, false_or]
    constructor
    · rintro ⟨s, hs, hcov⟩
      rcases hs with (⟨⟨r, rg⟩, hm, rfl⟩ | ⟨reg, hm, rfl⟩) | ⟨ns, hm, rfl⟩
      · refine ⟨r, by simpa using hcov, .inl ?_⟩
        rw [show col.finish.chunk = col.chunk from rfl, e2] at hm
        obtain ⟨n, f, l, pre, hh, items, c, post, h1, h2, h3, h4, h5, _⟩ := chunk_source.mp hm
        exact ⟨n, f, l, pre, hh, items, c, post, h1, h2, h3, h4, h5⟩
      · simp only [Bool.and_eq_true, decide_eq_true_eq, Range.contains] at hcov
        obtain ⟨a, b, hp, hrg, _⟩ := (hreg reg).mp hm
        refine ⟨reg.rule, hcov.1, .inr (.inl ⟨a, b, hp, ?_, ?_⟩)⟩
        · have := hcov.2.1; rw [hrg] at this; exact this
        · have := hcov.2.2; rw [hrg] at this; exact this
      · simp only [Bool.and_eq_true, decide_eq_true_eq, Range.contains] at hcov
        rw [show col.finish.node = col.node from rfl, e3] at hm
        obtain ⟨n, f, l, c, h1, h2, h3, h4, _⟩ := node_source.mp hm
        rw [h4] at hcov
        exact ⟨ns.rule, hcov.1, .inr (.inr ⟨n, f, l, c, h1, h2, h3, hcov.2.1, hcov.2.2⟩)⟩
    · rintro ⟨r, hname, hcase⟩
      rcases hcase with ⟨n, f, l, pre, hh, items, c, post, h1, h2, h3, h4, h5⟩ |
        ⟨a, b, hp, h1, h2⟩ | ⟨n, f, l, c, h1, h2, h3, h4, h5⟩
      · refine ⟨_, .inl (.inl ⟨(r, c.range), ?_, rfl⟩), by simpa using hname⟩
        rw [show col.finish.chunk = col.chunk from rfl, e2]
        exact chunk_source.mpr ⟨n, f, l, pre, hh, items, c, post, h1, h2, h3, h4, h5, rfl⟩
      · refine ⟨_, .inl (.inr ⟨⟨⟨a.start, b.stop⟩, r, a⟩, (hreg _).mpr ⟨a, b, hp, rfl, rfl⟩, rfl⟩), ?_⟩
        simp [Range.contains, hname, h1, h2]
      · refine ⟨_, .inr ⟨⟨n.range, r, c.range⟩, ?_, rfl⟩, ?_⟩
        · rw [show col.finish.node = col.node from rfl, e3]
          exact node_source.mpr ⟨n, f, l, c, h1, h2, h3, rfl, rfl⟩
        · simp [Range.contains, hname, h4, h5]

/-! ### C10 -/

theorem firstMatch_iff {l : List Suppression} {d : Diagnostic} {c : Range} :
    (l.find? (fun s => s.covers d)).map (·.comment) = some c ↔ ∃ s, FirstMatch l d s ∧ s.comment = c := by
  rw [Option.map_eq_some_iff]
  constructor
  · rintro ⟨s, hs, hc⟩
    obtain ⟨h1, as, bs, h2, h3⟩ := List.find?_eq_some_iff_append.mp hs
    exact ⟨s, ⟨as, bs, h2, h1, fun t ht => by simpa using h3 t ht⟩, hc⟩
  · rintro ⟨s, ⟨as, bs, h2, h1, h3⟩, hc⟩
    exact ⟨s, List.find?_eq_some_iff_append.mpr ⟨h1, as, bs, h2, fun t ht => by simp [h3 t ht]⟩, hc⟩

theorem mem_unused {m : Manager} {used : List Range} {c : Range} :
    c ∈ unusedSuppressions m used ↔ (∃ s ∈ suppressions m, s.comment = c) ∧ c ∉ used := by
  unfold unusedSuppressions suppressions
  simp only [List.mem_append, List.mem_filter, List.mem_map]
  constructor
  · rintro (((⟨⟨x, hx, rfl⟩, h⟩ | ⟨⟨x, hx, rfl⟩, h⟩) | ⟨⟨x, hx, rfl⟩, h⟩) | ⟨⟨x, hx, rfl⟩, h⟩)
    · exact ⟨⟨_, .inl (.inl (.inl ⟨x, hx, rfl⟩)), rfl⟩, by simpa using h⟩
    · exact ⟨⟨_, .inl (.inl (.inr ⟨x, hx, rfl⟩)), rfl⟩, by simpa using h⟩
    · exact ⟨⟨_, .inl (.inr ⟨x, hx, rfl⟩), rfl⟩, by simpa using h⟩
    · exact ⟨⟨_, .inr ⟨x, hx, rfl⟩, rfl⟩, by simpa using h⟩
  · rintro ⟨⟨s, (((⟨x, hx, rfl⟩ | ⟨x, hx, rfl⟩) | ⟨x, hx, rfl⟩) | ⟨x, hx, rfl⟩), rfl⟩, h⟩
    · exact .inl (.inl (.inl ⟨⟨x, hx, rfl⟩, by simpa using h⟩))
    · exact .inl (.inl (.inr ⟨⟨x, hx, rfl⟩, by simpa using h⟩))
    · exact .inl (.inr ⟨⟨x, hx, rfl⟩, by simpa using h⟩)
    · exact .inr ⟨⟨x, hx, rfl⟩, by simpa using h⟩

/-- **C10 (outdated iff useless).** After filtering the diagnostics `ds`, a suppression comment is reported as outdated
exactly when it is the first matching suppression of none of them. -/
theorem C10_outdated_iff {root : SynNode} {source : Str} {m : Manager} (h : collect root source = some m)
    (ds : List Diagnostic) (c : Range) :
    c ∈ unusedSuppressions m (filterDiagnostics m ds).2 ↔
    (∃ s ∈ suppressions m, s.comment = c) ∧ ¬ ∃ d ∈ ds, ∃ s, FirstMatch (suppressions m) d s ∧ s.comment = c := by
  rw [mem_unused, (filterDiagnostics_eq (collect_hasAny h) ds).2]
  simp only [suppressedBy_find, firstMatch_iff]

/-- **C10 (removal is safe).** Without the suppressions of a comment reported as outdated, every hidden diagnostic is still
covered by another suppression. -/
theorem C10_removal_safe {root : SynNode} {source : Str} {m : Manager} (h : collect root source = some m)
    (ds : List Diagnostic) (c : Range) (hc : c ∈ unusedSuppressions m (filterDiagnostics m ds).2)
    (d : Diagnostic) (hd : d ∈ ds) (hid : d ∉ (filterDiagnostics m ds).1) :
    ∃ s ∈ suppressions m, s.comment ≠ c ∧ s.covers d = true := by
  have hnot := ((C10_outdated_iff h ds c).mp hc).2
  rw [(filterDiagnostics_eq (collect_hasAny h) ds).1, List.mem_filter] at hid
  cases hs : suppressedBy m d with
  | none => exact absurd ⟨hd, by simp [hs]⟩ hid
  | some x =>
    rw [suppressedBy_find] at hs
    obtain ⟨s, hfm, hsc⟩ := firstMatch_iff.mp hs
    have hfm' := hfm
    obtain ⟨as, bs, hl, hcov, _⟩ := hfm'
    refine ⟨s, by rw [hl]; simp, ?_, hcov⟩
    intro heq
    exact hnot ⟨d, hd, s, hfm, heq⟩

/-! ### Concrete cases -/

/-- `foo(⏎# jarl-ignore-end any_is_na⏎x)⏎# jarl-ignore-start any_is_na: r` -/
def panicTree : SynNode :=
  .mk ⟨0, 39⟩ false [] [] [] [
    .mk ⟨0, 39⟩ false [] [⟨cs! "# jarl-ignore-start any_is_na: r", ⟨40, 72⟩⟩] [] [
      .mk ⟨37, 38⟩ false [⟨cs! "# jarl-ignore-end any_is_na", ⟨7, 34⟩⟩] [] [] []]]

def panicSource : Str := cs! "foo(\n  # jarl-ignore-end any_is_na\n  x)\n# jarl-ignore-start any_is_na: r"

/-- F9: an end comment inside a call and a start comment below it make jarl panic. -/
theorem C12_panic_witness : fromNode panicTree panicSource = none := by decide +kernel

def okTree : SynNode :=
  .mk ⟨0, 80⟩ false [] [] [] [
    .mk ⟨30, 43⟩ false [⟨cs! "# jarl-ignore any_is_na: ok", ⟨0, 27⟩⟩] [] [] []]

def okSource : Str := cs! "# jarl-ignore any_is_na: ok\n  any(is.na(x))\nany(is.na(y))"

example : (fromNode okTree okSource).map (fun m => (filterDiagnostics m
    [.new (cs! "any_is_na") [] none ⟨30, 43⟩ .empty, .new (cs! "any_is_na") [] none ⟨44, 57⟩ .empty]).1) =
    some [.new (cs! "any_is_na") [] none ⟨44, 57⟩ .empty] := by decide +kernel

example : CommentsFromSource okTree okSource := by
  intro n f l c hr hc
  have hn : n = okTree ∨ n = .mk ⟨30, 43⟩ false [⟨cs! "# jarl-ignore any_is_na: ok", ⟨0, 27⟩⟩] [] [] [] := by
    clear hc
    induction hr with
    | root => exact .inl rfl
    | firstChild _ hch ih =>
      rcases ih with h | h
      · subst h; simp [okTree, SynNode.children] at hch; exact .inr hch.1.symm
      · subst h; simp [SynNode.children] at hch
    | laterChild _ hch hm ih =>
      rcases ih with h | h
      · subst h; simp [okTree, SynNode.children] at hch; rw [hch.2] at hm; cases hm
      · subst h; simp [SynNode.children] at hch
  rcases hn with h | h
  · subst h; simp [okTree, SynNode.leading, SynNode.trailing, SynNode.dangling] at hc
  · subst h
    simp [SynNode.leading, SynNode.trailing, SynNode.dangling] at hc
    subst hc
    exact ⟨[], cs! "\n  any(is.na(x))\nany(is.na(y))", rfl⟩

end Jarl
