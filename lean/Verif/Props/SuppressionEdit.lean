import Verif.SuppressionEdit
import Verif.Props.Directive
/-!
# C13, C23, C31: writing suppression comments
-/
namespace Jarl
open Spec

/-- **C13.** The text generated for known rules and a non-blank one-line reason is, apart from the line
break and re-indentation around it, one line per rule in order; and each line is read back as a valid
`ignore` directive of precisely that rule. -/
theorem C13_inserted_comments_are_valid (rules : List Rule) (reason indent : Str) (lead : Bool)
    (hr : ¬ Blank reason) (hrn : '\n' ∉ reason) (hi : Blank indent) (hin : '\n' ∉ indent) :
    ∃ lines : List Str,
      formatSuppressionComments (rules.map Rule.name) reason indent lead =
        (if lead then cs! "\n" else []) ++ (lines.map (· ++ cs! "\n")).flatten ++ (if lead then indent else []) ∧
      (∀ l ∈ lines, '\n' ∉ l) ∧
      lines.map parseCommentDirective = rules.map (fun r => some (.valid (.ignore r))) := by
  refine ⟨rules.map (fun r => indent ++ cs! "# jarl-ignore " ++ r.name ++ cs! ": " ++ reason), ?_, ?_, ?_⟩
  · unfold formatSuppressionComments
    congr 2
    induction rules with
    | nil => rfl
    | cons r rs ih => simp only [List.map_cons, commentLines, List.flatten_cons, ih]
  · intro l hl
    obtain ⟨r, _, rfl⟩ := List.mem_map.mp hl
    have : '\n' ∉ r.name := fun h => absurd (r.name_chars.1 _ h) (by decide)
    simp [hin, hrn, this]
  · rw [List.map_map]
    apply List.map_congr_left
    intro r _
    show parseCommentDirective _ = _
    rw [C11_valid]
    have : Explained r (r.name ++ cs! ": " ++ reason) :=
      ⟨[], [], ' ' :: reason, by intro c hc; simp at hc, by intro c hc; simp at hc,
        fun h => hr (fun c hc => h c (by simp [hc])), by simp⟩
    have h := ValidComment.ignore (m := cs! "# ") hi (.inr rfl) this
    simpa using h

/-- F6: with a blank reason (e.g. `--add-jarl-ignore=""`) none of the generated comments is valid: they are
all reported as unexplained. -/
theorem C13_blank_reason (r : Rule) (reason indent : Str) (hr : Blank reason) (hi : Blank indent) :
    parseCommentDirective (indent ++ cs! "# jarl-ignore " ++ r.name ++ cs! ": " ++ reason) =
      some .missingExplanation := by
  rw [C11_unexplained]
  refine ⟨indent, cs! "# ", cs! "jarl-ignore ", r.name ++ cs! ": " ++ reason, hi, .ignore (.inr rfl),
    ⟨r, [], [], ':' :: ' ' :: reason, by intro c hc; simp at hc, by intro c hc; simp at hc, by simp,
      .inr ⟨' ' :: reason, ?_, rfl⟩⟩, by simp⟩
  intro c hc
  rcases List.mem_cons.mp hc with rfl | h
  · decide
  · exact hr _ h

namespace Spec

/-- `p` is the start of the line of `source` that contains byte `pos`, with that line's indentation. -/
def LineStart (source : Str) (pos : Nat) (p : InsertPoint) : Prop :=
  ∃ pre line rest : Str, source = pre ++ line ++ rest ∧ (pre = [] ∨ ∃ q, pre = q ++ ['\n']) ∧ '\n' ∉ line ∧
    pos = blen (pre ++ line) ∧ p.offset = blen pre ∧ p.needsLeadingNewline = false ∧
    (∃ tail, line ++ rest = p.indent ++ tail) ∧ Blank p.indent ∧ '\n' ∉ p.indent

/-- `p` is byte `pos` itself, which is inside a line; the comment will be put on its own line and the code after it
indented by spaces to the same byte column. -/
def Inline (source : Str) (pos : Nat) (p : InsertPoint) : Prop :=
  ∃ pre line rest : Str, source = pre ++ line ++ rest ∧ (pre = [] ∨ ∃ q, pre = q ++ ['\n']) ∧ '\n' ∉ line ∧
    pos = blen (pre ++ line) ∧ p.offset = pos ∧ p.needsLeadingNewline = true ∧
    p.indent = List.replicate (blen line) ' '

end Spec

theorem takeWhile_indent (l : Str) :
    (∃ tail, l = l.takeWhile (fun c => isWs c && c ≠ '\n') ++ tail) ∧
    Blank (l.takeWhile (fun c => isWs c && c ≠ '\n')) ∧ '\n' ∉ l.takeWhile (fun c => isWs c && c ≠ '\n') := by
  refine ⟨⟨l.dropWhile _, (List.takeWhile_append_dropWhile).symm⟩, ?_, ?_⟩
  · intro c hc
    have := List.all_eq_true.mp (List.all_takeWhile (l := l) (p := fun c => isWs c && c ≠ '\n')) c hc
    simp at this
    exact this.1
  · intro hc
    have := List.all_eq_true.mp (List.all_takeWhile (l := l) (p := fun c => isWs c && c ≠ '\n')) _ hc
    simp at this

theorem lineStartPoint_spec {source : Str} {pos : Nat} {p : InsertPoint} (h : lineStartPoint source pos = some p) :
    LineStart source pos p := by
  unfold lineStartPoint findLineStartAndIndent at h
  cases hs : splitAtByte pos source with
  | none => rw [hs] at h; cases h
  | some ab =>
    obtain ⟨before, after⟩ := ab
    rw [hs] at h
    obtain ⟨h1, h2⟩ := splitAtByte_iff.mp hs
    cases hl : splitLast '\n' before with
    | none =>
      simp only [hl] at h
      cases h
      have hn := splitLast_none.mp hl
      refine ⟨[], before, after, by simpa using h1, .inl rfl, hn, by simpa using h2.symm, rfl, rfl, ?_⟩
      rw [← h1]
      exact takeWhile_indent source
    | some pl =>
      obtain ⟨pre, line⟩ := pl
      simp only [hl] at h
      cases h
      obtain ⟨h3, h4⟩ := splitLast_iff.mp hl
      refine ⟨pre ++ ['\n'], line, after, by rw [h1, h3]; simp, .inr ⟨pre, rfl⟩, h4, by rw [← h2, h3]; simp,
        ?_, rfl, takeWhile_indent (line ++ after)⟩
      simp only [blen_append]
      rfl

theorem inlinePoint_spec {source : Str} {pos : Nat} {p : InsertPoint} (h : inlinePoint source pos = some p) :
    Inline source pos p := by
  unfold inlinePoint computeInlineIndent at h
  cases hs : splitAtByte pos source with
  | none => rw [hs] at h; cases h
  | some ab =>
    obtain ⟨before, after⟩ := ab
    rw [hs] at h
    obtain ⟨h1, h2⟩ := splitAtByte_iff.mp hs
    cases hl : splitLast '\n' before with
    | none =>
      simp only [hl] at h
      cases h
      exact ⟨[], before, after, by simpa using h1, .inl rfl, splitLast_none.mp hl, by simpa using h2.symm, rfl, rfl, rfl⟩
    | some pl =>
      obtain ⟨pre, line⟩ := pl
      simp only [hl] at h
      cases h
      obtain ⟨h3, h4⟩ := splitLast_iff.mp hl
      exact ⟨pre ++ ['\n'], line, after, by rw [h1, h3]; simp, .inr ⟨pre, rfl⟩, h4, by rw [← h2, h3]; simp, rfl, rfl, rfl⟩

theorem walkUp_spec {source : Str} {d : Nat} {l : List AncestorInfo} {a b : Option Nat} {p : InsertPoint}
    (h : walkUp source d l a b = some p) :
    ∃ pos, (LineStart source pos p ∨ Inline source pos p) ∧
      (pos = d ∨ a = some pos ∨ b = some pos ∨ ∃ n ∈ l, n.meaningful = true ∧ n.start = pos) := by
  induction l generalizing a b with
  | nil =>
    unfold walkUp at h
    split at h
    · exact ⟨_, .inl (lineStartPoint_spec h), .inr (.inr (.inl rfl))⟩
    · split at h
      · exact ⟨_, .inr (inlinePoint_spec h), .inr (.inl rfl)⟩
      · exact ⟨_, .inl (lineStartPoint_spec h), .inl rfl⟩
  | cons n rest ih =>
    unfold walkUp at h
    split at h
    · rename_i hm
      split at h
      · cases h
      · rename_i own _
        split at h
        · split at h
          · split at h
            · cases h
            · exact ⟨_, .inl (lineStartPoint_spec h), .inr (.inl rfl)⟩
            · exact ⟨_, .inr (inlinePoint_spec h), .inr (.inl rfl)⟩
          · split at h
            · exact ⟨_, .inl (lineStartPoint_spec h), .inr (.inr (.inr ⟨n, by simp, hm, rfl⟩))⟩
            · obtain ⟨pos, h1, h2⟩ := ih h
              refine ⟨pos, h1, ?_⟩
              rcases h2 with h2 | h2 | h2 | ⟨m, hm1, hm2⟩
              · exact .inl h2
              · cases h2
              · exact .inr (.inr (.inl h2))
              · exact .inr (.inr (.inr ⟨m, by simp [hm1], hm2⟩))
        · obtain ⟨pos, h1, h2⟩ := ih h
          refine ⟨pos, h1, ?_⟩
          have hn : some n.start = some pos → ∃ m ∈ n :: rest, m.meaningful = true ∧ m.start = pos := by
            intro he; cases he; exact ⟨n, by simp, hm, rfl⟩
          rcases h2 with h2 | h2 | h2 | ⟨m, hm1, hm2⟩
          · exact .inl h2
          · exact .inr (.inr (.inr (hn h2)))
          · split at h2
            · exact .inr (.inr (.inr (hn h2)))
            · exact .inr (.inr (.inl h2))
          · exact .inr (.inr (.inr ⟨m, by simp [hm1], hm2⟩))
    · obtain ⟨pos, h1, h2⟩ := ih h
      refine ⟨pos, h1, ?_⟩
      rcases h2 with h2 | h2 | h2 | ⟨m, hm1, hm2⟩
      · exact .inl h2
      · exact .inr (.inl h2)
      · exact .inr (.inr (.inl h2))
      · exact .inr (.inr (.inr ⟨m, by simp [hm1], hm2⟩))

/-- **C31.** A suppression comment is inserted either at the start of the line that contains the start of the
diagnostic or of an enclosing expression (with the indentation of that line), or right in front of an
enclosing expression, on a line of its own. -/
theorem C31_insert_point {source : Str} {anc : Option (List AncestorInfo)} {d : Nat} {p : InsertPoint}
    (h : computeInsertPoint source anc d = some p) :
    ∃ pos, (pos = d ∨ ∃ l, anc = some l ∧ ∃ n ∈ l, n.meaningful = true ∧ n.start = pos) ∧
      (LineStart source pos p ∨ Inline source pos p) := by
  unfold computeInsertPoint at h
  split at h
  · exact ⟨d, .inl rfl, .inl (lineStartPoint_spec h)⟩
  · obtain ⟨pos, h1, h2⟩ := walkUp_spec h
    refine ⟨pos, ?_, h1⟩
    rcases h2 with h2 | h2 | h2 | h2
    · exact .inl h2
    · cases h2
    · cases h2
    · exact .inr ⟨_, rfl, h2⟩

theorem lineStartPoint_isSome {source : Str} {pos : Nat} (h : ∃ a b, source = a ++ b ∧ blen a = pos) :
    (lineStartPoint source pos).isSome := by
  obtain ⟨a, b, h1, h2⟩ := h
  unfold lineStartPoint findLineStartAndIndent
  rw [splitAtByte_iff.mpr ⟨h1, h2⟩]
  simp only
  cases splitLast '\n' a <;> rfl

theorem inlinePoint_isSome {source : Str} {pos : Nat} (h : ∃ a b, source = a ++ b ∧ blen a = pos) :
    (inlinePoint source pos).isSome := by
  obtain ⟨a, b, h1, h2⟩ := h
  unfold inlinePoint computeInlineIndent
  rw [splitAtByte_iff.mpr ⟨h1, h2⟩]
  simp only
  cases splitLast '\n' a <;> rfl

theorem isOnOwnLine_isSome {source : Str} {pos : Nat} (h : ∃ a b, source = a ++ b ∧ blen a = pos) :
    ∃ x, isOnOwnLine source pos = some x := by
  obtain ⟨a, b, h1, h2⟩ := h
  unfold isOnOwnLine
  split
  · exact ⟨_, rfl⟩
  · rw [splitAtByte_iff.mpr ⟨h1, h2⟩]
    simp only
    cases splitLast '\n' a <;> exact ⟨_, rfl⟩

/-- **C31 (no panic).** If the diagnostic and all enclosing nodes start on character boundaries, an insertion
point is found. -/
theorem C31_always_found {source : Str} {anc : Option (List AncestorInfo)} {d : Nat}
    (hd : ∃ a b, source = a ++ b ∧ blen a = d)
    (hn : ∀ l, anc = some l → ∀ n ∈ l, ∃ a b, source = a ++ b ∧ blen a = n.start) :
    ∃ p, computeInsertPoint source anc d = some p := by
  rw [← Option.isSome_iff_exists]
  unfold computeInsertPoint
  cases anc with
  | none => exact lineStartPoint_isSome hd
  | some l =>
    have hn := hn l rfl
    simp only
    have key : ∀ (l : List AncestorInfo) (a b : Option Nat),
        (∀ n ∈ l, ∃ x y, source = x ++ y ∧ blen x = n.start) →
        (∀ s, a = some s → ∃ x y, source = x ++ y ∧ blen x = s) →
        (∀ s, b = some s → ∃ x y, source = x ++ y ∧ blen x = s) →
        (walkUp source d l a b).isSome := by
      intro l
      induction l with
      | nil =>
        intro a b _ ha hb
        unfold walkUp
        split
        · exact lineStartPoint_isSome (hb _ rfl)
        · split
          · exact inlinePoint_isSome (ha _ rfl)
          · exact lineStartPoint_isSome hd
      | cons n rest ih =>
        intro a b hl ha hb
        have hl' : ∀ m ∈ rest, ∃ x y, source = x ++ y ∧ blen x = m.start := fun m hm => hl m (by simp [hm])
        have hns := hl n (by simp)
        unfold walkUp
        split
        · obtain ⟨own, hown⟩ := isOnOwnLine_isSome hns
          rw [hown]
          simp only
          split
          · split
            · rename_i s
              obtain ⟨o2, ho2⟩ := isOnOwnLine_isSome (ha s rfl)
              rw [ho2]
              cases o2
              · exact inlinePoint_isSome (ha s rfl)
              · exact lineStartPoint_isSome (ha s rfl)
            · split
              · exact lineStartPoint_isSome hns
              · exact ih _ _ hl' (fun s h => by cases h) hb
          · apply ih _ _ hl'
            · intro s h; cases h; exact hns
            · intro s h
              split at h
              · cases h; exact hns
              · exact hb s h
        · exact ih _ _ hl' ha hb
    exact key l none none hn (fun s h => by cases h) (fun s h => by cases h)

/-- The insertion point has a blank one-line indentation and lies on a character boundary. -/
theorem insertPoint_usable {source : Str} {anc : Option (List AncestorInfo)} {d : Nat} {p : InsertPoint}
    (h : computeInsertPoint source anc d = some p) :
    Blank p.indent ∧ '\n' ∉ p.indent ∧ ∃ a b, source = a ++ b ∧ blen a = p.offset := by
  obtain ⟨pos, _, h2⟩ := C31_insert_point h
  rcases h2 with ⟨pre, line, rest, h1, _, _, _, h5, _, _, h7, h8⟩ | ⟨pre, line, rest, h1, _, _, h4, h5, _, h7⟩
  · exact ⟨h7, h8, pre, line ++ rest, by rw [h1]; simp, h5.symm⟩
  · refine ⟨?_, ?_, pre ++ line, rest, h1, by rw [h5, h4]⟩
    · rw [h7]; intro c hc; rw [List.eq_of_mem_replicate hc]; decide
    · rw [h7]; intro hc; exact absurd (List.eq_of_mem_replicate hc) (by decide)

/-- **C13 (end to end).** Every comment written at a computed insertion point is valid. -/
theorem C13_at_insert_point {source : Str} {anc : Option (List AncestorInfo)} {d : Nat} {p : InsertPoint}
    (h : computeInsertPoint source anc d = some p) (rules : List Rule) (reason : Str)
    (hr : ¬ Blank reason) (hrn : '\n' ∉ reason) :
    ∃ lines : List Str,
      formatSuppressionComments (rules.map Rule.name) reason p.indent p.needsLeadingNewline =
        (if p.needsLeadingNewline then cs! "\n" else []) ++ (lines.map (· ++ cs! "\n")).flatten ++
          (if p.needsLeadingNewline then p.indent else []) ∧
      (∀ l ∈ lines, '\n' ∉ l) ∧
      lines.map parseCommentDirective = rules.map (fun r => some (.valid (.ignore r))) := by
  obtain ⟨h1, h2, _⟩ := insertPoint_usable h
  exact C13_inserted_comments_are_valid rules reason p.indent _ hr hrn h1 h2

/-! ### C23 -/

namespace Spec

/-- `out` is `s` with the given texts inserted at the given byte offsets (counted from `base`), all other text
unchanged and in place. -/
inductive Woven : Nat → Str → List (Nat × Str) → Str → Prop
  | done {base s} : Woven base s [] s
  | step {base p rest o t l out} : base + blen p = o → Woven o rest l out →
      Woven base (p ++ rest) ((o, t) :: l) (p ++ t ++ out)

end Spec

/-- Deleting the inserted pieces gives back the original. -/
theorem Woven.sublist {base s l out} (h : Woven base s l out) : s.Sublist out := by
  induction h with
  | done => exact List.Sublist.refl _
  | @step base p rest o t l out _ _ ih =>
    rw [List.append_assoc]
    exact List.Sublist.append (List.Sublist.refl _) (ih.trans (List.sublist_append_right _ _))

theorem merge_inv (edits : List RawEdit) (h : edits.Pairwise (fun a b => a.point.offset ≤ b.point.offset)) :
    let acc := edits.foldl mergeStep []
    acc.Pairwise (fun a b => b.point.offset < a.point.offset) ∧
    (∀ m ∈ acc, (∃ e ∈ edits, e.point = m.point) ∧ m.rules.Nodup ∧
      ∀ r, r ∈ m.rules ↔ ∃ e ∈ edits, e.point.offset = m.point.offset ∧ e.rule = r) ∧
    (∀ e ∈ edits, ∃ m ∈ acc, m.point.offset = e.point.offset) := by
  -- induction from the end of the list
  generalize hn : edits.length = n
  induction n generalizing edits with
  | zero =>
    have : edits = [] := List.eq_nil_of_length_eq_zero hn
    subst this
    simp
  | succ n ih =>
    rcases List.eq_nil_or_concat edits with he | ⟨es, e, he⟩
    · subst he; simp at hn
    · rw [List.concat_eq_append] at he
      subst he
      have hlen : es.length = n := by simp at hn; exact hn
      obtain ⟨hp1, _, hp2⟩ := List.pairwise_append.mp h
      obtain ⟨i1, i2, i3⟩ := ih es hp1 hlen
      have hle : ∀ a ∈ es, a.point.offset ≤ e.point.offset := fun a ha => hp2 a ha e (by simp)
      simp only [List.foldl_append, List.foldl_cons, List.foldl_nil]
      generalize hacc : es.foldl mergeStep [] = acc at i1 i2 i3
      have hacc_le : ∀ m ∈ acc, m.point.offset ≤ e.point.offset := by
        intro m hm
        obtain ⟨⟨e', he', hp⟩, _⟩ := i2 m hm
        rw [← hp]; exact hle e' he'
      have lift : ∀ {m : MergedEdit}, m ∈ acc → m.point.offset ≠ e.point.offset →
          (∃ e' ∈ es ++ [e], e'.point = m.point) ∧ m.rules.Nodup ∧
          ∀ r, r ∈ m.rules ↔ ∃ e' ∈ es ++ [e], e'.point.offset = m.point.offset ∧ e'.rule = r := by
        intro m hm hne
        obtain ⟨⟨e', he', hp⟩, h2, h3⟩ := i2 m hm
        refine ⟨⟨e', by simp [he'], hp⟩, h2, fun r => ?_⟩
        rw [h3]
        constructor
        · rintro ⟨x, hx, hx2⟩; exact ⟨x, by simp [hx], hx2⟩
        · rintro ⟨x, hx, hx2, hx3⟩
          rcases List.mem_append.mp hx with hx | hx
          · exact ⟨x, hx, hx2, hx3⟩
          · simp at hx; subst hx; exact absurd hx2.symm hne
      cases acc with
      | nil =>
        have hes : es = [] := by
          cases es with
          | nil => rfl
          | cons x xs => obtain ⟨m, hm, _⟩ := i3 x (by simp); cases hm
        subst hes
        simp only [mergeStep, List.nil_append, List.mem_singleton]
        refine ⟨List.pairwise_singleton _ _, ?_, ?_⟩
        · rintro m rfl
          refine ⟨⟨e, rfl, rfl⟩, by simp, fun r => ?_⟩
          simp only [List.mem_singleton]
          constructor
          · rintro rfl; exact ⟨e, rfl, rfl, rfl⟩
          · rintro ⟨x, rfl, _, rfl⟩; rfl
        · rintro x rfl; exact ⟨_, rfl, rfl⟩
      | cons last before =>
        simp only [mergeStep]
        by_cases heq : last.point.offset = e.point.offset
        · rw [if_pos heq]
          have hlast := i2 last (by simp)
          have hbefore : ∀ m ∈ before, m.point.offset ≠ e.point.offset := by
            intro m hm
            have := (List.pairwise_cons.mp i1).1 m hm
            omega
          by_cases hmem : e.rule ∈ last.rules
          · rw [if_pos hmem]
            refine ⟨i1, ?_, ?_⟩
            · intro m hm
              rcases List.mem_cons.mp hm with rfl | hm
              · obtain ⟨⟨e', he', hp⟩, h2, h3⟩ := hlast
                refine ⟨⟨e', by simp [he'], hp⟩, h2, fun r => ?_⟩
                constructor
                · intro hr; obtain ⟨x, hx, hx2⟩ := (h3 r).mp hr; exact ⟨x, by simp [hx], hx2⟩
                · rintro ⟨x, hx, hx2, hx3⟩
                  rcases List.mem_append.mp hx with hx | hx
                  · exact (h3 r).mpr ⟨x, hx, hx2, hx3⟩
                  · simp at hx; subst hx; subst hx3; exact hmem
              · exact lift (by simp [hm]) (hbefore m hm)
            · intro x hx
              rcases List.mem_append.mp hx with hx | hx
              · exact i3 x hx
              · simp at hx; subst hx; exact ⟨last, by simp, heq⟩
          · rw [if_neg hmem]
            refine ⟨?_, ?_, ?_⟩
            · exact List.pairwise_cons.mpr ⟨(List.pairwise_cons.mp i1).1, (List.pairwise_cons.mp i1).2⟩
            · intro m hm
              rcases List.mem_cons.mp hm with rfl | hm
              · obtain ⟨⟨e', he', hp⟩, h2, h3⟩ := hlast
                refine ⟨⟨e', by simp [he'], hp⟩, ?_, fun r => ?_⟩
                · simp only
                  rw [List.nodup_append]
                  refine ⟨h2, by simp, ?_⟩
                  intro a ha b hb
                  simp at hb; subst hb
                  rintro rfl; exact hmem ha
                · simp only [List.mem_append, List.mem_singleton]
                  constructor
                  · rintro (hr | rfl)
                    · obtain ⟨x, hx, hx2⟩ := (h3 r).mp hr; exact ⟨x, .inl hx, hx2⟩
                    · exact ⟨e, .inr rfl, heq.symm, rfl⟩
                  · rintro ⟨x, hx | hx, hx2, hx3⟩
                    · exact .inl ((h3 r).mpr ⟨x, hx, hx2, hx3⟩)
                    · subst hx; exact .inr hx3.symm
              · exact lift (by simp [hm]) (hbefore m hm)
            · intro x hx
              rcases List.mem_append.mp hx with hx | hx
              · obtain ⟨m, hm, hm2⟩ := i3 x hx
                rcases List.mem_cons.mp hm with rfl | hm
                · exact ⟨_, List.mem_cons_self .., hm2⟩
                · exact ⟨m, by simp [hm], hm2⟩
              · simp at hx; subst hx; exact ⟨_, List.mem_cons_self .., heq⟩
        · rw [if_neg heq]
          have hall : ∀ m ∈ last :: before, m.point.offset < e.point.offset := by
            intro m hm
            rcases List.mem_cons.mp hm with rfl | hm
            · have := hacc_le m (by simp); omega
            · have := (List.pairwise_cons.mp i1).1 m hm
              have := hacc_le last (by simp)
              omega
          refine ⟨List.pairwise_cons.mpr ⟨hall, i1⟩, ?_, ?_⟩
          · intro m hm
            rcases List.mem_cons.mp hm with rfl | hm
            · refine ⟨⟨e, by simp, rfl⟩, by simp, fun r => ?_⟩
              simp only [List.mem_singleton, List.mem_append]
              constructor
              · rintro rfl; exact ⟨e, .inr rfl, rfl, rfl⟩
              · rintro ⟨x, hx | hx, hx2, hx3⟩
                · obtain ⟨m, hm, hm2⟩ := i3 x hx
                  have := hall m hm
                  omega
                · subst hx; exact hx3.symm
            · exact lift hm (by have := hall m hm; omega)
          · intro x hx
            rcases List.mem_append.mp hx with hx | hx
            · obtain ⟨m, hm, hm2⟩ := i3 x hx
              exact ⟨m, by simp [hm], hm2⟩
            · simp at hx; subst hx; exact ⟨_, List.mem_cons_self .., rfl⟩

/-- The text inserted for one merged edit. -/
def editText (reason : Str) (m : MergedEdit) : Str :=
  formatSuppressionComments m.rules reason m.point.indent m.point.needsLeadingNewline

theorem Woven.append_last {base s l out o t a b} (h : Woven base a l out) (hs : s = a ++ b)
    (ho : base + blen a = o) : Woven base s (l ++ [(o, t)]) (out ++ t ++ b) := by
  induction h generalizing s with
  | @done base a =>
    subst hs
    exact Woven.step ho Woven.done
  | @step base p rest o' t' l out h1 _ ih =>
    subst hs
    have := ih (s := rest ++ b) rfl (by rw [blen_append] at ho; omega)
    have h2 := Woven.step (t := t') h1 this
    simpa using h2

/-- Inserting from the last offset to the first one weaves the texts into the original. -/
theorem applyInsertions_woven (reason : Str) (l : List MergedEdit) (content out : Str)
    (hsort : l.Pairwise (fun a b => b.point.offset < a.point.offset))
    (h : applyInsertions reason l content = some out) :
    Woven 0 content (l.reverse.map (fun m => (m.point.offset, editText reason m))) out := by
  -- generalise: a suffix `done` has already been processed
  have key : ∀ (l : List MergedEdit) (a b out : Str),
      l.Pairwise (fun a b => b.point.offset < a.point.offset) →
      (∀ m ∈ l, m.point.offset ≤ blen a) →
      applyInsertions reason l (a ++ b) = some out →
      ∃ out', out = out' ++ b ∧
        Woven 0 a (l.reverse.map (fun m => (m.point.offset, editText reason m))) out' := by
    intro l
    induction l with
    | nil => intro a b out _ _ h; cases h; exact ⟨a, rfl, .done⟩
    | cons m ms ih =>
      intro a b out hs hle h
      unfold applyInsertions insertStr at h
      cases hsp : splitAtByte m.point.offset (a ++ b) with
      | none => rw [hsp] at h; cases h
      | some xy =>
        obtain ⟨x, y⟩ := xy
        rw [hsp] at h
        simp only at h
        obtain ⟨h1, h2⟩ := splitAtByte_iff.mp hsp
        have hlem := hle m (by simp)
        -- x is a prefix of a
        have hlen : x.length ≤ a.length := by
          rcases Nat.le_total x.length a.length with hh | hh
          · exact hh
          · obtain ⟨z, hz⟩ : ∃ z, x = a ++ z := by
              refine ⟨x.drop a.length, ?_⟩
              have : a = x.take a.length := by
                have := congrArg (List.take a.length) h1
                simpa [List.take_append_of_le_length hh] using this
              conv => rhs; lhs; rw [this]
              exact (List.take_append_drop _ _).symm
            rw [hz, blen_append] at h2
            have h4 : blen z = 0 := by omega
            have h5 := length_le_blen z
            have h6 : z = [] := List.eq_nil_of_length_eq_zero (by omega)
            rw [hz, h6]; simp
        obtain ⟨a', ha'⟩ : ∃ a', a = x ++ a' := by
          refine ⟨a.drop x.length, ?_⟩
          have : x = a.take x.length := by
            have := congrArg (List.take x.length) h1
            simpa [List.take_append_of_le_length hlen] using this.symm
          conv => rhs; lhs; rw [this]
          exact (List.take_append_drop _ _).symm
        have hy : y = a' ++ b := by
          rw [ha', List.append_assoc] at h1
          exact (List.append_cancel_left h1).symm
        subst hy
        obtain ⟨hs1, hs2⟩ := List.pairwise_cons.mp hs
        rw [List.append_assoc] at h
        obtain ⟨out', ho1, ho2⟩ := ih x _ out hs2 (fun k hk => by have := hs1 k hk; omega) h
        refine ⟨out' ++ editText reason m ++ a', by rw [ho1]; simp [editText], ?_⟩
        rw [List.reverse_cons, List.map_append]
        exact Woven.append_last ho2 ha' (by omega)
  obtain ⟨o', h1, h2⟩ := key l content [] out hsort (by
      -- every offset is inside the content, otherwise insertion would have panicked
      intro m hm
      have : ∀ (l : List MergedEdit) (c out : Str), applyInsertions reason l c = some out →
          l.Pairwise (fun a b => b.point.offset < a.point.offset) → ∀ m ∈ l, m.point.offset ≤ blen c := by
        intro l
        cases l with
        | nil => intro c out _ _ m hm; cases hm
        | cons x xs =>
          intro c out h hp m hm
          have hx : x.point.offset ≤ blen c := by
            unfold applyInsertions insertStr at h
            cases hsp : splitAtByte x.point.offset c with
            | none => rw [hsp] at h; cases h
            | some ab =>
              obtain ⟨h1, h2⟩ := splitAtByte_iff.mp hsp
              rw [h1, blen_append]; omega
          rcases List.mem_cons.mp hm with rfl | hm
          · exact hx
          · have := (List.pairwise_cons.mp hp).1 m hm; omega
      exact this l content out h hsort m hm) (by simpa using h)
  rw [List.append_nil] at h1
  rw [h1]; exact h2

theorem mergeEdits_desc (edits : List RawEdit) :
    (mergeEdits edits).mergeSort (fun a b => b.point.offset ≤ a.point.offset) = (mergeEdits edits).reverse := by
  have hs : (edits.mergeSort (fun a b => a.point.offset ≤ b.point.offset)).Pairwise
      (fun a b => a.point.offset ≤ b.point.offset) := by
    have := List.pairwise_mergeSort (le := fun (a b : RawEdit) => decide (a.point.offset ≤ b.point.offset))
      (by intro a b c; simp; omega) (by intro a b; simp; omega) edits
    exact this.imp (by intro a b h; simpa using h)
  obtain ⟨h1, _, _⟩ := merge_inv _ hs
  unfold mergeEdits
  rw [List.reverse_reverse]
  generalize List.foldl mergeStep [] (edits.mergeSort _) = acc at h1 ⊢
  have hp : (acc.reverse.mergeSort (fun a b => decide (b.point.offset ≤ a.point.offset))).Perm acc :=
    (List.mergeSort_perm _ _).trans (List.reverse_perm _)
  have hsorted := List.pairwise_mergeSort (le := fun (a b : MergedEdit) => decide (b.point.offset ≤ a.point.offset))
      (by intro a b c; simp; omega) (by intro a b; simp; omega) acc.reverse
  refine List.Perm.eq_of_pairwise (le := fun a b => decide (b.point.offset ≤ a.point.offset) = true) ?_ hsorted ?_ hp
  · intro a b ha hb hab hba
    simp at hab hba
    have heq : a.point.offset = b.point.offset := by omega
    have ha' : a ∈ acc := hp.mem_iff.mp ha
    -- elements of a strictly decreasing list with the same offset are equal
    have uniq : ∀ (l : List MergedEdit), l.Pairwise (fun a b => b.point.offset < a.point.offset) →
        ∀ a ∈ l, ∀ b ∈ l, a.point.offset = b.point.offset → a = b := by
      intro l
      induction l with
      | nil => intro _ a ha; cases ha
      | cons x xs ih =>
        intro hp a ha b hb he
        obtain ⟨h1, h2⟩ := List.pairwise_cons.mp hp
        rcases List.mem_cons.mp ha with rfl | hax
        · rcases List.mem_cons.mp hb with rfl | hb
          · rfl
          · have := h1 b hb; omega
        · rcases List.mem_cons.mp hb with hbx | hb
          · subst hbx; have := h1 a hax; omega
          · exact ih h2 a hax b hb he
    exact uniq acc h1 a ha' b hb heq
  · exact h1.imp (by intro a b h; simp; omega)

/-- **C23.** The file written is the original with comment texts woven in at strictly increasing offsets. The
offsets are exactly the insertion points of the diagnostics; the text at an offset has one comment line for each
distinct rule of the diagnostics with that insertion point (never two lines for the same rule), and no other rule. -/
theorem C23_only_inserts {content reason out : Str} {edits : List RawEdit}
    (h : addIgnoreToFile content reason edits = some out) :
    ∃ pieces : List (Nat × List Str × RawEdit),
      Woven 0 content (pieces.map (fun (o, rules, e) =>
        (o, formatSuppressionComments rules reason e.point.indent e.point.needsLeadingNewline))) out ∧
      (pieces.map (·.1)).Pairwise (· < ·) ∧
      (∀ e ∈ edits, ∃ x ∈ pieces, x.1 = e.point.offset ∧ e.rule ∈ x.2.1) ∧
      (∀ x ∈ pieces, x.2.2 ∈ edits ∧ x.2.2.point.offset = x.1 ∧ x.2.1.Nodup ∧
        ∀ r ∈ x.2.1, ∃ e ∈ edits, e.point.offset = x.1 ∧ e.rule = r) := by
  unfold addIgnoreToFile at h
  rw [mergeEdits_desc] at h
  have hs : (edits.mergeSort (fun a b => a.point.offset ≤ b.point.offset)).Pairwise
      (fun a b => a.point.offset ≤ b.point.offset) := by
    have := List.pairwise_mergeSort (le := fun (a b : RawEdit) => decide (a.point.offset ≤ b.point.offset))
      (by intro a b c; simp; omega) (by intro a b; simp; omega) edits
    exact this.imp (by intro a b h; simpa using h)
  obtain ⟨h1, h2, h3⟩ := merge_inv _ hs
  simp only [List.mem_mergeSort] at h2 h3
  unfold mergeEdits at h
  rw [List.reverse_reverse] at h
  generalize List.foldl mergeStep [] (edits.mergeSort _) = acc at h h1 h2 h3
  have hw := applyInsertions_woven reason acc content out h1 h
  -- choose, for each merged edit, a raw edit with its insertion point
  have choose : ∀ l : List MergedEdit, (∀ m ∈ l, m ∈ acc) →
      ∃ ps : List (Nat × List Str × RawEdit),
        ps.map (fun (o, rules, e) => (o, formatSuppressionComments rules reason e.point.indent e.point.needsLeadingNewline)) =
          l.map (fun m => (m.point.offset, editText reason m)) ∧
        ps.map (·.1) = l.map (·.point.offset) ∧
        (∀ m ∈ l, ∃ x ∈ ps, x.1 = m.point.offset ∧ x.2.1 = m.rules) ∧
        (∀ x ∈ ps, ∃ m ∈ l, x.1 = m.point.offset ∧ x.2.1 = m.rules ∧ x.2.2 ∈ edits ∧ x.2.2.point = m.point) := by
    intro l
    induction l with
    | nil => intro _; exact ⟨[], rfl, rfl, by simp, by simp⟩
    | cons m ms ih =>
      intro hm
      obtain ⟨ps, a1, a2, a3, a4⟩ := ih (fun k hk => hm k (by simp [hk]))
      obtain ⟨⟨e, he, hp⟩, _⟩ := h2 m (hm m (by simp))
      refine ⟨(m.point.offset, m.rules, e) :: ps, ?_, ?_, ?_, ?_⟩
      · simp only [List.map_cons, a1, hp, editText]
      · simp [a2]
      · intro k hk
        rcases List.mem_cons.mp hk with rfl | hk
        · exact ⟨_, List.mem_cons_self .., rfl, rfl⟩
        · obtain ⟨x, hx, hx2⟩ := a3 k hk; exact ⟨x, by simp [hx], hx2⟩
      · intro x hx
        rcases List.mem_cons.mp hx with rfl | hx
        · exact ⟨m, by simp, rfl, rfl, he, hp⟩
        · obtain ⟨k, hk, hk2⟩ := a4 x hx; exact ⟨k, by simp [hk], hk2⟩
  obtain ⟨ps, p1, p2, p3, p4⟩ := choose acc.reverse (by simp)
  refine ⟨ps, by rw [p1]; exact hw, ?_, ?_, ?_⟩
  · rw [p2, List.pairwise_map, List.pairwise_reverse]; exact h1
  · intro e he
    obtain ⟨m, hm, hmo⟩ := h3 e he
    obtain ⟨x, hx, hx1, hx2⟩ := p3 m (by simpa using hm)
    refine ⟨x, hx, by rw [hx1, hmo], ?_⟩
    rw [hx2]
    exact ((h2 m hm).2.2 e.rule).mpr ⟨e, he, hmo.symm, rfl⟩
  · intro x hx
    obtain ⟨m, hm, hx1, hx2, hx3, hx4⟩ := p4 x hx
    have hm : m ∈ acc := by simpa using hm
    obtain ⟨_, hn, hr⟩ := h2 m hm
    refine ⟨hx3, by rw [hx4, hx1], by rw [hx2]; exact hn, ?_⟩
    intro r hrr
    rw [hx2] at hrr
    obtain ⟨e, he, he1, he2⟩ := (hr r).mp hrr
    exact ⟨e, he, by rw [he1, hx1], he2⟩

/-- **C23 (nothing is lost).** The original text is what remains after deleting inserted characters. -/
theorem C23_original_is_sublist {content reason out : Str} {edits : List RawEdit}
    (h : addIgnoreToFile content reason edits = some out) : content.Sublist out := by
  obtain ⟨ps, hw, _⟩ := C23_only_inserts h
  exact Woven.sublist hw

/-- **C23 (no panic).** Edits computed by `computeInsertPoint` on the same content are always applied. -/
theorem C23_never_panics (content reason : Str) (edits : List RawEdit)
    (h : ∀ e ∈ edits, ∃ a b, content = a ++ b ∧ blen a = e.point.offset) :
    ∃ out, addIgnoreToFile content reason edits = some out := by
  unfold addIgnoreToFile
  rw [mergeEdits_desc]
  have hs : (edits.mergeSort (fun a b => a.point.offset ≤ b.point.offset)).Pairwise
      (fun a b => a.point.offset ≤ b.point.offset) := by
    have := List.pairwise_mergeSort (le := fun (a b : RawEdit) => decide (a.point.offset ≤ b.point.offset))
      (by intro a b c; simp; omega) (by intro a b; simp; omega) edits
    exact this.imp (by intro a b h; simpa using h)
  obtain ⟨h1, h2, _⟩ := merge_inv _ hs
  simp only [List.mem_mergeSort] at h2
  unfold mergeEdits
  rw [List.reverse_reverse]
  generalize List.foldl mergeStep [] (edits.mergeSort _) = acc at h1 h2
  have hb : ∀ m ∈ acc, ∃ a b, content = a ++ b ∧ blen a = m.point.offset := by
    intro m hm
    obtain ⟨⟨e, he, hp⟩, _⟩ := h2 m hm
    rw [← hp]; exact h e he
  -- each insertion leaves the text before it untouched
  have key : ∀ (l : List MergedEdit) (c : Str), l.Pairwise (fun a b => b.point.offset < a.point.offset) →
      (∀ m ∈ l, ∃ a b, c = a ++ b ∧ blen a = m.point.offset) → ∃ out, applyInsertions reason l c = some out := by
    intro l
    induction l with
    | nil => intro c _ _; exact ⟨c, rfl⟩
    | cons m ms ih =>
      intro c hp hc
      obtain ⟨a, b, hab, hlen⟩ := hc m (by simp)
      obtain ⟨p1, p2⟩ := List.pairwise_cons.mp hp
      unfold applyInsertions insertStr
      rw [splitAtByte_iff.mpr ⟨hab, hlen⟩]
      simp only
      apply ih _ p2
      intro k hk
      obtain ⟨x, y, hxy, hx⟩ := hc k (by simp [hk])
      have hlt := p1 k hk
      -- x is a prefix of a
      have hle : x.length ≤ a.length := by
        rcases Nat.le_total x.length a.length with hh | hh
        · exact hh
        · exfalso
          have : a = x.take a.length := by
            have := congrArg (List.take a.length) (hab.symm.trans hxy)
            simpa [List.take_append_of_le_length hh] using this
          have h3 : blen a ≤ blen x := by
            have h4 : blen x = blen (x.take a.length) + blen (x.drop a.length) := by
              rw [← blen_append, List.take_append_drop]
            rw [← this] at h4
            omega
          omega
      have hpre : a = x ++ a.drop x.length := by
        have : x = a.take x.length := by
          have := congrArg (List.take x.length) (hxy.symm.trans hab)
          simpa [List.take_append_of_le_length hle] using this
        conv => rhs; lhs; rw [this]
        exact (List.take_append_drop _ _).symm
      refine ⟨x, a.drop x.length ++
        formatSuppressionComments m.rules reason m.point.indent m.point.needsLeadingNewline ++ b, ?_, hx⟩
      conv => lhs; rw [hpre]
      simp only [List.append_assoc]
  exact key acc content h1 hb

/-! ### Concrete cases -/

example : addIgnoreToFile (cs! "any(is.na(x))\n") (cs! "ok") [⟨⟨0, [], false⟩, cs! "any_is_na"⟩] =
    some (cs! "# jarl-ignore any_is_na: ok\nany(is.na(x))\n") := by decide +kernel
example : computeInsertPoint (cs! "f(\n  any(is.na(x))\n)\n") (some [⟨true, false, 5⟩, ⟨false, false, 5⟩, ⟨true, false, 0⟩]) 5 =
    some ⟨3, cs! "  ", false⟩ := by decide +kernel
example : computeInsertPoint (cs! "if (any(is.na(x))) 1") (some [⟨true, false, 4⟩, ⟨true, true, 0⟩]) 4 =
    some ⟨4, cs! "    ", true⟩ := by decide +kernel

end Jarl
