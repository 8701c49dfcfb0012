import Verif.Lemmas.Lsp
/-!
# C41: positions exchanged with the editor
-/
namespace Jarl
open Spec

theorem new_at {pre post : Str} : ∃ a l r b, pre = a ++ l ∧ post = r ++ b ∧ WholeLines a ∧ '\n' ∉ l ∧
    '\n' ∉ r ∧ AtLineEnd b := by
  obtain ⟨a, e, h1, h2⟩ := lineTail_decomp pre
  obtain ⟨r, b, e', h3, h4⟩ := lineHead_decomp post
  exact ⟨a, _, r, b, e, e', h1, h2, h3, h4⟩

theorem posOf_eq (enc : Enc) {a l : Str} (ha : WholeLines a) (hl : '\n' ∉ l) :
    posOf enc (a ++ l) = ⟨countNl a, units enc l⟩ := by
  simp only [posOf, lineTail_eq ha hl, countNl_append, countNl_noNl hl, Nat.add_zero]

/-- **C41** (document side). In every document and for every encoding, the byte offset of a place between two
characters is converted to its LSP position. -/
theorem C41_offset_to_position (enc : Enc) (v : Int) (pre post : Str) :
    (TextDoc.new (pre ++ post) v).offsetToPosition (blen pre) enc = .ok (posOf enc pre) := by
  obtain ⟨a, l, r, b, rfl, rfl, ha, hl, hr, hb⟩ := new_at (pre := pre) (post := post)
  have hlr : '\n' ∉ l ++ r := by simp [hl, hr]
  have hline := line_of_offset (a := a) (l := l) (p := r ++ b) hl
  have hrange := lineRange_new (a := a) (m := l ++ r) (b := b) v ha hlr hb
  have hcont : a ++ l ++ (r ++ b) = a ++ (l ++ r) ++ b := by simp
  unfold TextDoc.offsetToPosition
  rw [if_neg (by simp [TextDoc.new])]
  have hl2 : (TextDoc.new (a ++ l ++ (r ++ b)) v).lineStarts = computeLineStarts (a ++ l ++ (r ++ b)) := rfl
  have hc2 : (TextDoc.new (a ++ l ++ (r ++ b)) v).content = a ++ (l ++ r) ++ b := hcont
  simp only [hl2, hline]
  have hrange' : (TextDoc.new (a ++ l ++ (r ++ b)) v).lineRange (countNl a) = some (blen a, blen a + blen (l ++ r)) := by
    rw [hcont]; exact hrange
  simp only [hrange', hc2, lspSlice_mid]
  rw [if_neg (by simp)]
  have : blen (a ++ l) - blen a = blen l := by simp
  rw [this, columnInLine_ok, posOf_eq enc ha hl]

/-- **C41** (diagnostic side). The start and end of a reported range, given as byte offsets between characters, are
converted to their LSP positions in the negotiated encoding. -/
theorem C41_diagnostic_position (enc : Enc) (pre post : Str) :
    byteOffsetToLspPosition (blen pre) (pre ++ post) enc = .ok (posOf enc pre) := by
  unfold byteOffsetToLspPosition
  rw [if_neg (by simp)]
  have := scanPos_ok enc pre post [] [] (.inl rfl) (by simp)
  simpa [countNl] using this

/-- **C41** (round trip). The position of a place is converted back to the byte offset of that place. -/
theorem C41_position_to_offset (enc : Enc) (v : Int) (pre post : Str) :
    (TextDoc.new (pre ++ post) v).positionToOffset (posOf enc pre) enc = .ok (blen pre) := by
  obtain ⟨a, l, r, b, rfl, rfl, ha, hl, hr, hb⟩ := new_at (pre := pre) (post := post)
  have hlr : '\n' ∉ l ++ r := by simp [hl, hr]
  have hrange := lineRange_new (a := a) (m := l ++ r) (b := b) v ha hlr hb
  have hcont : a ++ l ++ (r ++ b) = a ++ (l ++ r) ++ b := by simp
  rw [hcont, posOf_eq enc ha hl]
  unfold TextDoc.positionToOffset
  have hlen : (TextDoc.new (a ++ (l ++ r) ++ b) v).lineStarts.length = countNl (a ++ (l ++ r) ++ b) + 1 :=
    computeLineStarts_length _
  have hc : (TextDoc.new (a ++ (l ++ r) ++ b) v).content = a ++ (l ++ r) ++ b := rfl
  rw [if_neg (by simp only [hlen, countNl_append]; omega)]
  simp only [hrange, hc, lspSlice_mid, offsetInLine_ok]
  simp

/-- **C41** (any position a client may send). In every document and for every position: converting it never
panics; it fails exactly when the line does not exist, or (UTF-8) the column is past the end of the line, or
(UTF-16) the column is inside a surrogate pair; otherwise the result is on that line, at that column when the
line is long enough and at the end of the line when it is not. -/
theorem C41_any_position (enc : Enc) (v : Int) (text : Str) (p : LPos) :
    ((TextDoc.new text v).positionToOffset p enc = .err ∧
      (countNl text < p.line ∨
        ∃ pre line post, text = pre ++ line ++ post ∧ countNl pre = p.line ∧ WholeLines pre ∧
          '\n' ∉ line ∧ AtLineEnd post ∧
          ((enc = .utf8 ∧ units enc line < p.ch) ∨
           (enc = .utf16 ∧ ∃ l c r, line = l ++ c :: r ∧ units enc l < p.ch ∧ p.ch < units enc (l ++ [c]))))) ∨
    (∃ off pre line post, (TextDoc.new text v).positionToOffset p enc = .ok (blen pre + off) ∧
      text = pre ++ line ++ post ∧ countNl pre = p.line ∧ WholeLines pre ∧
      '\n' ∉ line ∧ AtLineEnd post ∧
      ((enc = .utf8 ∧ off = p.ch ∧ off ≤ blen line) ∨
       (∃ l r, line = l ++ r ∧ off = blen l ∧
         (units enc l = p.ch ∨ (enc ≠ .utf8 ∧ r = [] ∧ units enc l < p.ch))))) := by
  by_cases hn : p.line ≤ countNl text
  · obtain ⟨a, m, b, rfl, hcount, ha, hm, hb⟩ := line_decomp text p.line hn
    have hrange := lineRange_new (a := a) (m := m) (b := b) v ha hm hb
    have hlen : (TextDoc.new (a ++ m ++ b) v).lineStarts.length = countNl (a ++ m ++ b) + 1 :=
      computeLineStarts_length _
    have hc : (TextDoc.new (a ++ m ++ b) v).content = a ++ m ++ b := rfl
    have heq : (TextDoc.new (a ++ m ++ b) v).positionToOffset p enc =
        match offsetInLine m p.ch enc with
        | .ok off => .ok (blen a + off)
        | .err => .err
        | .panic => .panic := by
      unfold TextDoc.positionToOffset
      rw [if_neg (by omega), ← hcount]
      simp only [hrange, hc, lspSlice_mid]
      cases offsetInLine m p.ch enc <;> rfl
    rw [heq]
    cases enc with
    | utf8 =>
      by_cases hch : p.ch > blen m
      · left
        refine ⟨by simp [offsetInLine, hch], .inr ⟨a, m, b, rfl, hcount, ha, hm, hb, .inl ⟨rfl, ?_⟩⟩⟩
        rw [units_utf8]; exact hch
      · right
        exact ⟨p.ch, a, m, b, by simp [offsetInLine, hch], rfl, hcount, ha, hm, hb,
          .inl ⟨rfl, rfl, by omega⟩⟩
    | utf16 =>
      obtain ⟨l, r, e, hw, hcase⟩ := walkLine_spec len16 p.ch m 0 0
      simp only [Nat.zero_add] at hw hcase
      have hu : (l.map len16).sum = units .utf16 l := rfl
      by_cases hgt : (l.map len16).sum > p.ch
      · left
        refine ⟨by simp [offsetInLine, hw, hgt], .inr ⟨a, m, b, rfl, hcount, ha, hm, hb, .inr ⟨rfl, ?_⟩⟩⟩
        rcases hcase with ⟨h1, h2⟩ | ⟨h1, h2⟩
        · rcases List.eq_nil_or_concat l with rfl | ⟨l', c, hl⟩
          · simp at hgt
          · rw [List.concat_eq_append] at hl
            refine ⟨l', c, r, by simp [e, hl], h2 l' c hl, ?_⟩
            rw [← hl]; exact hgt
        · omega
      · right
        refine ⟨blen l, a, m, b, by simp [offsetInLine, hw, hgt], rfl, hcount, ha, hm, hb,
          .inr ⟨l, r, e, rfl, ?_⟩⟩
        rcases hcase with ⟨h1, h2⟩ | ⟨h1, h2⟩
        · left; rw [← hu]; omega
        · right; exact ⟨by simp, h1, by rw [← hu]; exact h2⟩
    | utf32 =>
      obtain ⟨l, r, e, hw, hcase⟩ := walkLine_spec (fun _ => 1) p.ch m 0 0
      simp only [Nat.zero_add] at hw hcase
      have hu : (l.map (fun _ => 1)).sum = units .utf32 l := rfl
      right
      refine ⟨blen l, a, m, b, by simp [offsetInLine, hw], rfl, hcount, ha, hm, hb,
          .inr ⟨l, r, e, rfl, ?_⟩⟩
      rcases hcase with ⟨h1, h2⟩ | ⟨h1, h2⟩
      · left
        rw [← hu]
        rcases List.eq_nil_or_concat l with rfl | ⟨l', c, hl⟩
        · simp at h1 ⊢; omega
        · rw [List.concat_eq_append] at hl
          have := h2 l' c hl
          rw [hl] at h1 ⊢
          simp only [List.map_append, List.sum_append, List.map_cons, List.map_nil, List.sum_cons,
            List.sum_nil] at h1 ⊢
          omega
      · right; exact ⟨by simp, h1, by rw [← hu]; exact h2⟩
  · left
    refine ⟨?_, .inl (by omega)⟩
    unfold TextDoc.positionToOffset
    rw [if_pos]
    have hlen : (TextDoc.new text v).lineStarts.length = countNl text + 1 := computeLineStarts_length _
    omega

theorem posOf_extend (enc : Enc) (pre q : Str) :
    ((posOf enc pre).line < (posOf enc (pre ++ q)).line) ∨
    ((posOf enc pre).line = (posOf enc (pre ++ q)).line ∧
      (posOf enc (pre ++ q)).ch = (posOf enc pre).ch + units enc q) := by
  by_cases h : '\n' ∈ q
  · left
    simp only [posOf, countNl_append]
    have : 0 < countNl q := by
      unfold countNl
      rw [List.countP_pos_iff]
      exact ⟨_, h, by simp⟩
    omega
  · right
    obtain ⟨a, e, h1, h2⟩ := lineTail_decomp pre
    have hp : posOf enc pre = ⟨countNl a, units enc (lineTail pre)⟩ := by
      conv => lhs; rw [e]
      exact posOf_eq enc h1 h2
    have hq : posOf enc (pre ++ q) = ⟨countNl a, units enc (lineTail pre ++ q)⟩ := by
      conv => lhs; rw [e, List.append_assoc]
      exact posOf_eq enc h1 (by simp [h, h2])
    rw [hp, hq]
    exact ⟨rfl, units_append _ _ _⟩

theorem units_pos {enc : Enc} {q : Str} (h : q ≠ []) : 0 < units enc q := by
  cases q with
  | nil => exact absurd rfl h
  | cons c cs =>
    have := unit_pos enc c
    simp only [units, List.map_cons, List.sum_cons]; omega

theorem posOf_le_extend (enc : Enc) (pre q : Str) : (posOf enc pre).le (posOf enc (pre ++ q)) = true := by
  rcases posOf_extend enc pre q with h | ⟨h1, h2⟩
  · simp [LPos.le, h]
  · simp [LPos.le, h1, h2]

theorem posOf_lt_extend (enc : Enc) (pre q : Str) (hq : q ≠ []) :
    (posOf enc (pre ++ q)).le (posOf enc pre) = false := by
  have := units_pos (enc := enc) hq
  rcases posOf_extend enc pre q with h | ⟨h1, h2⟩
  · simp [LPos.le]; omega
  · simp [LPos.le, h1, h2]; omega

theorem prefix_total {p q r s : Str} (h : p ++ r = q ++ s) : (∃ t, q = p ++ t) ∨ (∃ t, t ≠ [] ∧ p = q ++ t) := by
  induction p generalizing q with
  | nil => exact .inl ⟨q, rfl⟩
  | cons c cs ih =>
    cases q with
    | nil => exact .inr ⟨c :: cs, by simp, rfl⟩
    | cons d ds =>
      simp only [List.cons_append, List.cons.injEq] at h
      obtain ⟨rfl, h⟩ := h
      rcases ih h with ⟨t, rfl⟩ | ⟨t, ht, rfl⟩
      · exact .inl ⟨t, rfl⟩
      · exact .inr ⟨t, ht, rfl⟩

/-- **C41** (order). Two places of the same document are in the same order as byte offsets and as LSP positions,
in every encoding: a reported range is never inverted, and two distinct places never share a position. -/
theorem C41_order (enc : Enc) (p r q s : Str) (h : p ++ r = q ++ s) :
    (posOf enc p).le (posOf enc q) = true ↔ blen p ≤ blen q := by
  rcases prefix_total h with ⟨t, rfl⟩ | ⟨t, ht, rfl⟩
  · simp [posOf_le_extend]
  · simp only [posOf_lt_extend enc q t ht, Bool.false_eq_true, false_iff]
    have : t.length ≤ blen t := length_le_blen t
    have : 0 < t.length := List.length_pos_iff.2 ht
    simp only [blen_append]; omega

/-- **C41** (requested range). The test that decides whether a code action is offered, made on LSP ranges, is the
test that the two byte ranges touch, in every encoding. -/
theorem C41_overlap (enc : Enc) (text p₁ r₁ p₂ r₂ q₁ s₁ q₂ s₂ : Str)
    (h₁ : text = p₁ ++ r₁) (h₂ : text = p₂ ++ r₂) (h₃ : text = q₁ ++ s₁) (h₄ : text = q₂ ++ s₂) :
    rangesOverlap ⟨posOf enc p₁, posOf enc p₂⟩ ⟨posOf enc q₁, posOf enc q₂⟩ = true ↔
      blen p₁ ≤ blen q₂ ∧ blen q₁ ≤ blen p₂ := by
  unfold rangesOverlap
  rw [Bool.and_eq_true, C41_order enc p₁ r₁ q₂ s₂ (h₁.symm.trans h₄), C41_order enc q₁ s₁ p₂ r₂ (h₃.symm.trans h₂)]

/-- **C41** (insertion point of jarl-ignore comments). It is right when the client negotiated UTF-8 … -/
theorem C41_insertion_position_utf8 (pre post : Str) :
    serverOffsetToPosition (pre ++ post) (blen pre) = some (posOf .utf8 pre) := by
  obtain ⟨a, l, r, b, rfl, rfl, ha, hl, hr, hb⟩ := new_at (pre := pre) (post := post)
  unfold serverOffsetToPosition
  have hmin : min (blen (a ++ l)) (blen (a ++ l ++ (r ++ b))) = blen (a ++ l) := by simp
  rw [hmin, splitAtByte_append]
  rw [posOf_eq _ ha hl, units_utf8]
  simp only [countNl_append, countNl_noNl hl, Nat.add_zero]
  rcases ha with rfl | ⟨a', rfl⟩
  · have : splitLast '\n' ([] ++ l) = none := splitLast_none.2 (by simpa using hl)
    simp only [this]; simp
  · have : splitLast '\n' (a' ++ ['\n'] ++ l) = some (a', l) := splitLast_iff.2 ⟨by simp, hl⟩
    simp only [this, blen_append, blen_cons, blen_nil, nl_size, Option.some.injEq, LPos.mk.injEq, true_and]
    show blen a' + (1 + 0) + blen l - (blen a' + 1) = blen l
    omega

/-- **C41** … and wrong otherwise: it counts bytes whatever the negotiated encoding. With UTF-16 (the protocol's
default), after `f(é, ` the comment is inserted one column too far (finding F19). -/
theorem C41_false_insertion_position :
    ∃ pre post : Str, serverOffsetToPosition (pre ++ post) (blen pre) ≠ some (posOf .utf16 pre) ∧
      serverOffsetToPosition (pre ++ post) (blen pre) ≠ some (posOf .utf32 pre) := by
  refine ⟨cs! "f(é, ", cs! "x)", ?_, ?_⟩ <;> decide

/-- More exactly: it is right in UTF-16 or UTF-32 only if the line up to that point is ASCII. -/
theorem C41_insertion_position_ascii (enc : Enc) (henc : enc ≠ .utf8) (pre post : Str) :
    serverOffsetToPosition (pre ++ post) (blen pre) = some (posOf enc pre) ↔
      ∀ c ∈ lineTail pre, c.utf8Size = 1 := by
  rw [C41_insertion_position_utf8]
  have key : ∀ s : Str, (units .utf8 s = units enc s ↔ ∀ c ∈ s, c.utf8Size = 1) ∧ units enc s ≤ units .utf8 s := by
    intro s
    induction s with
    | nil => simp [units]
    | cons c cs ih =>
      have h1 : unit enc c ≤ unit .utf8 c ∧ (unit .utf8 c = unit enc c ↔ c.utf8Size = 1) := by
        have hp := c.utf8Size_pos
        cases enc with
        | utf8 => exact absurd rfl henc
        | utf32 => exact ⟨hp, Iff.rfl⟩
        | utf16 =>
          simp only [unit]
          have : c.toNat < 0x10000 ∨ c.utf8Size = 4 := by
            by_cases h : c.toNat < 0x10000
            · exact .inl h
            · right
              have hv : c.val.toNat = c.toNat := rfl
              have h1 : ¬ c.val ≤ 0x7f := by
                rw [UInt32.le_iff_toNat_le, hv]; simp; omega
              have h2 : ¬ c.val ≤ 0x7ff := by
                rw [UInt32.le_iff_toNat_le, hv]; simp; omega
              have h3 : ¬ c.val ≤ 0xffff := by
                rw [UInt32.le_iff_toNat_le, hv]; simp; omega
              unfold Char.utf8Size
              exact (if_neg h1).trans ((if_neg h2).trans (if_neg h3))
          split <;> omega
      simp only [units, List.map_cons, List.sum_cons, List.mem_cons, forall_eq_or_imp] at ih ⊢
      obtain ⟨h2, h3⟩ := h1
      obtain ⟨ih1, ih2⟩ := ih
      refine ⟨?_, by omega⟩
      rw [← h3, ← ih1]
      omega
  simp only [posOf, Option.some.injEq, LPos.mk.injEq, true_and]
  exact (key _).1

/-- A concrete case: an accented letter, an emoji (surrogate pair), two lines. -/
example : posOf .utf16 (cs! "é\nx😀") = ⟨1, 3⟩ ∧ posOf .utf8 (cs! "é\nx😀") = ⟨1, 5⟩ ∧
    posOf .utf32 (cs! "é\nx😀") = ⟨1, 2⟩ := by decide

end Jarl
