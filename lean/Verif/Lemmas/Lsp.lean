import Verif.Spec.Lsp
/-!
# Lemmas for LSP positions
-/
namespace Jarl
open Spec

theorem nl_size : ('\n' : Char).utf8Size = 1 := by decide

/-- `A` is a sequence of whole lines: empty, or ending with a newline. -/
def WholeLines (a : Str) : Prop := a = [] ∨ ∃ a', a = a' ++ ['\n']

/-- `b` starts with the end of a line: empty, or a newline first. -/
def AtLineEnd (b : Str) : Prop := b = [] ∨ ∃ b', b = '\n' :: b'

theorem lineStartsFrom_append (i : Nat) (s t : Str) :
    lineStartsFrom i (s ++ t) = lineStartsFrom i s ++ lineStartsFrom (i + blen s) t := by
  induction s generalizing i with
  | nil => simp [lineStartsFrom]
  | cons c cs ih =>
    simp only [List.cons_append, lineStartsFrom, blen_cons]
    split
    · rename_i h; subst h; simp [ih, nl_size, Nat.add_assoc]
    · simp [ih, Nat.add_assoc]

theorem lineStartsFrom_length (i : Nat) (s : Str) : (lineStartsFrom i s).length = countNl s := by
  unfold countNl
  induction s generalizing i with
  | nil => rfl
  | cons c cs ih =>
    simp only [lineStartsFrom, List.countP_cons]
    split
    · rename_i h; simp [h, ih]
    · rename_i h; simp [h, ih]

theorem lineStartsFrom_noNl (i : Nat) {s : Str} (h : '\n' ∉ s) : lineStartsFrom i s = [] := by
  have h1 := lineStartsFrom_length i s
  have h2 : countNl s = 0 := by
    unfold countNl
    rw [List.countP_eq_zero]
    intro c hc
    simp; rintro rfl; exact h hc
  rw [h2] at h1
  exact List.eq_nil_of_length_eq_zero h1

theorem countNl_append (s t : Str) : countNl (s ++ t) = countNl s + countNl t := by
  simp [countNl]

theorem countNl_noNl {s : Str} (h : '\n' ∉ s) : countNl s = 0 := by
  unfold countNl
  rw [List.countP_eq_zero]
  intro c hc
  simp; rintro rfl; exact h hc

/-- Every text is whole lines followed by a line without newline, which is its `lineTail`. -/
theorem lineTail_decomp (s : Str) : ∃ a, s = a ++ lineTail s ∧ WholeLines a ∧ '\n' ∉ lineTail s := by
  refine ⟨(s.reverse.dropWhile (· ≠ '\n')).reverse, ?_, ?_, ?_⟩
  · unfold lineTail
    rw [← List.reverse_append, List.takeWhile_append_dropWhile, List.reverse_reverse]
  · generalize s.reverse = r
    induction r with
    | nil => left; rfl
    | cons c cs ih =>
      rw [List.dropWhile_cons]
      split
      · exact ih
      · rename_i h
        simp at h
        right; exact ⟨cs.reverse, by simp [h]⟩
  · unfold lineTail
    simp only [List.mem_reverse]
    intro h
    have := List.all_takeWhile (p := fun c => decide (c ≠ '\n')) (l := s.reverse)
    rw [List.all_eq_true] at this
    simpa using this _ h

theorem lineTail_eq {a l : Str} (ha : WholeLines a) (hl : '\n' ∉ l) : lineTail (a ++ l) = l := by
  unfold lineTail
  rw [List.reverse_append, List.takeWhile_append_of_pos]
  · rcases ha with rfl | ⟨a', rfl⟩
    · simp
    · simp
  · intro c hc
    simp at hc ⊢
    rintro rfl; exact hl hc

/-- Every text is a line without newline followed by the end of a line. -/
theorem lineHead_decomp (s : Str) : ∃ r b, s = r ++ b ∧ '\n' ∉ r ∧ AtLineEnd b := by
  induction s with
  | nil => exact ⟨[], [], rfl, by simp, .inl rfl⟩
  | cons c cs ih =>
    by_cases hc : c = '\n'
    · subst hc; exact ⟨[], _, rfl, by simp, .inr ⟨cs, rfl⟩⟩
    · obtain ⟨r, b, h1, h2, h3⟩ := ih
      refine ⟨c :: r, b, by simp [h1], ?_, h3⟩
      simp [h2]; exact fun h => hc h.symm

theorem lineStarts_at {a m b : Str} (ha : WholeLines a) (hm : '\n' ∉ m) :
    (computeLineStarts (a ++ m ++ b))[countNl a]? = some (blen a) := by
  unfold computeLineStarts
  rw [lineStartsFrom_append, lineStartsFrom_append, lineStartsFrom_noNl _ hm]
  rcases ha with rfl | ⟨a', rfl⟩
  · simp [countNl]
  · rw [lineStartsFrom_append]
    have hl := lineStartsFrom_length 0 a'
    have e1 : countNl (a' ++ ['\n']) = countNl a' + 1 := by simp [countNl]
    simp only [e1, List.getElem?_cons_succ, List.append_nil, List.append_assoc]
    rw [← hl, List.getElem?_append_right (Nat.le_refl _), Nat.sub_self]
    simp [lineStartsFrom, nl_size]

theorem lineStarts_next {a m b : Str} (hm : '\n' ∉ m) :
    (computeLineStarts (a ++ m ++ '\n' :: b))[countNl a + 1]? = some (blen a + blen m + 1) := by
  unfold computeLineStarts
  rw [lineStartsFrom_append, lineStartsFrom_append, lineStartsFrom_noNl _ hm]
  have hl := lineStartsFrom_length 0 a
  simp only [List.getElem?_cons_succ, List.append_nil]
  rw [← hl, List.getElem?_append_right (Nat.le_refl _), Nat.sub_self]
  simp [lineStartsFrom]

theorem computeLineStarts_length (s : Str) : (computeLineStarts s).length = countNl s + 1 := by
  simp [computeLineStarts, lineStartsFrom_length]

theorem lineRange_new {a m b : Str} (v : Int) (ha : WholeLines a) (hm : '\n' ∉ m) (hb : AtLineEnd b) :
    (TextDoc.new (a ++ m ++ b) v).lineRange (countNl a) = some (blen a, blen a + blen m) := by
  unfold TextDoc.lineRange TextDoc.new
  simp only [lineStarts_at ha hm, computeLineStarts_length, countNl_append, countNl_noNl hm]
  rcases hb with rfl | ⟨b', rfl⟩
  · simp [countNl]
  · rw [if_pos (by simp [countNl]), lineStarts_next hm]
    simp

theorem lspSlice_mid (a m b : Str) : slice (blen a) (blen a + blen m) (a ++ m ++ b) = some m :=
  slice_iff.2 ⟨a, b, rfl, rfl, rfl⟩

theorem units_append (enc : Enc) (s t : Str) : units enc (s ++ t) = units enc s + units enc t := by
  simp [units]

theorem units_utf8 (s : Str) : units .utf8 s = blen s := by
  induction s with
  | nil => rfl
  | cons c cs ih => simp only [units, List.map_cons, List.sum_cons, blen_cons, ← ih]; rfl

theorem units_utf16 (s : Str) : units .utf16 s = sum16 s := by
  unfold units sum16; rfl

theorem units_utf32 (s : Str) : units .utf32 s = s.length := by
  induction s with
  | nil => rfl
  | cons c cs ih => simp only [units, List.map_cons, List.sum_cons, List.length_cons, ← ih, unit]; omega

theorem unit_pos (enc : Enc) (c : Char) : 1 ≤ unit enc c := by
  cases enc
  · exact c.utf8Size_pos
  · show 1 ≤ if c.toNat < 0x10000 then 1 else 2
    split <;> omega
  · exact Nat.le_refl _

theorem columnInLine_ok (enc : Enc) (l r : Str) : columnInLine (l ++ r) (blen l) enc = .ok (units enc l) := by
  have h : min (blen l) (blen (l ++ r)) = blen l := by simp
  cases enc
  · simp [columnInLine, units_utf8]
  · simp only [columnInLine, h, splitAtByte_append, units_utf16]
  · simp only [columnInLine, h, splitAtByte_append, units_utf32]

theorem walkLine_ok (w : Char → Nat) (hw : ∀ c, 1 ≤ w c) (l r : Str) (p b : Nat) :
    walkLine w (p + (l.map w).sum) p b (l ++ r) = (p + (l.map w).sum, b + blen l) := by
  induction l generalizing p b with
  | nil => cases r <;> simp [walkLine]
  | cons c cs ih =>
    have := hw c
    simp only [List.map_cons, List.sum_cons, List.cons_append, walkLine, blen_cons]
    rw [if_neg (by omega)]
    have := ih (p + w c) (b + c.utf8Size)
    rw [show p + (w c + (cs.map w).sum) = p + w c + (cs.map w).sum by omega, this]
    simp [Nat.add_assoc]

theorem offsetInLine_ok (enc : Enc) (l r : Str) :
    offsetInLine (l ++ r) (units enc l) enc = .ok (blen l) := by
  cases enc
  · simp only [offsetInLine, units_utf8]; rw [if_neg (by simp)]
  · have h := walkLine_ok len16 (fun c => by unfold len16; split <;> omega) l r 0 0
    simp only [Nat.zero_add] at h
    simp only [offsetInLine, units_utf16]
    unfold sum16
    rw [h]; simp
  · have h := walkLine_ok (fun _ => 1) (fun _ => Nat.le_refl _) l r 0 0
    simp only [Nat.zero_add] at h
    simp only [offsetInLine]
    have e : units .utf32 l = (l.map (fun _ => 1)).sum := rfl
    rw [e, h]

/-! ### the walk, for an arbitrary column -/

/-- The walk stops at the first place with at least `n` units, or at the end of the line. -/
theorem walkLine_spec (w : Char → Nat) (n : Nat) (m : Str) (p b : Nat) :
    ∃ l r, m = l ++ r ∧ walkLine w n p b m = (p + (l.map w).sum, b + blen l) ∧
      ((n ≤ p + (l.map w).sum ∧ (∀ l' c, l = l' ++ [c] → p + (l'.map w).sum < n)) ∨
       (r = [] ∧ p + (l.map w).sum < n)) := by
  induction m generalizing p b with
  | nil =>
    refine ⟨[], [], rfl, by simp [walkLine], ?_⟩
    by_cases h : n ≤ p
    · left; refine ⟨by simpa using h, ?_⟩; intro l' c hl; simp at hl
    · right; exact ⟨rfl, by simpa using h⟩
  | cons c cs ih =>
    by_cases h : n ≤ p
    · refine ⟨[], c :: cs, rfl, by simp [walkLine, h], .inl ⟨by simpa using h, ?_⟩⟩
      intro l' c hl; simp at hl
    · obtain ⟨l, r, e, hw, hc⟩ := ih (p + w c) (b + c.utf8Size)
      refine ⟨c :: l, r, by simp [e], ?_, ?_⟩
      · simp only [walkLine, if_neg h, hw, List.map_cons, List.sum_cons, blen_cons]
        rw [Nat.add_assoc, Nat.add_assoc]
      · rcases hc with ⟨h1, h2⟩ | ⟨h1, h2⟩
        · left
          refine ⟨by simp only [List.map_cons, List.sum_cons]; omega, ?_⟩
          intro l' d hl
          cases l' with
          | nil => simp; omega
          | cons x l' =>
            simp only [List.cons_append, List.cons.injEq] at hl
            obtain ⟨rfl, hl⟩ := hl
            have := h2 l' d hl
            simp only [List.map_cons, List.sum_cons]; omega
        · right
          refine ⟨h1, by simp only [List.map_cons, List.sum_cons]; omega⟩

/-- Line `n` of a text with at least `n` newlines. -/
theorem line_decomp (s : Str) (n : Nat) (h : n ≤ countNl s) :
    ∃ a m b, s = a ++ m ++ b ∧ countNl a = n ∧ WholeLines a ∧ '\n' ∉ m ∧ AtLineEnd b := by
  induction n with
  | zero =>
    obtain ⟨r, b, e, h1, h2⟩ := lineHead_decomp s
    exact ⟨[], r, b, by simp [e], rfl, .inl rfl, h1, h2⟩
  | succ n ih =>
    obtain ⟨a, m, b, e, h1, h2, h3, h4⟩ := ih (by omega)
    rcases h4 with rfl | ⟨b', rfl⟩
    · subst e
      simp only [countNl_append, countNl_noNl h3, h1] at h
      simp [countNl] at h
      omega
    · obtain ⟨r, b, e', h5, h6⟩ := lineHead_decomp b'
      refine ⟨a ++ m ++ ['\n'], r, b, by simp [e, e'], ?_, .inr ⟨_, rfl⟩, h5, h6⟩
      simp only [countNl_append, countNl_noNl h3, h1]
      simp [countNl]

/-! ### the scan of lint.rs -/

theorem takeWhile_line {m b : Str} (hm : '\n' ∉ m) (hb : AtLineEnd b) :
    (m ++ b).takeWhile (· ≠ '\n') = m := by
  rw [List.takeWhile_append_of_pos]
  · rcases hb with rfl | ⟨b', rfl⟩ <;> simp
  · intro c hc; simp; rintro rfl; exact hm hc

/-- Invariant of the scan: `a` whole lines, `l` the part of the current line already read. -/
theorem scanPos_ok (enc : Enc) (q post a l : Str) (ha : WholeLines a) (hl : '\n' ∉ l) :
    scanPos (a ++ l ++ q ++ post) (blen (a ++ l ++ q)) enc (blen (a ++ l)) (countNl a) (blen a) (q ++ post) =
      .ok (posOf enc (a ++ l ++ q)) := by
  induction q generalizing a l with
  | nil =>
    have hp : posOf enc (a ++ l ++ []) = ⟨countNl a, units enc l⟩ := by
      simp only [List.append_nil, posOf, lineTail_eq ha hl, countNl_append, countNl_noNl hl, Nat.add_zero]
    rw [hp]
    cases post with
    | nil =>
      have : splitAtByte (blen a) (a ++ l ++ [] ++ []) = some (a, l) := by
        simp only [List.append_nil]; exact splitAtByte_append a l
      simp only [List.append_nil, scanPos] at this ⊢
      rw [this]
      cases enc
      · simp [units_utf8]
      · simp [units_utf16]
      · simp [units_utf32]
    | cons c cs =>
      have : splitAtByte (blen a) (a ++ l ++ [] ++ (c :: cs)) = some (a, l ++ (c :: cs)) := by
        simp only [List.append_nil, List.append_assoc]; exact splitAtByte_append a _
      simp only [List.nil_append, scanPos]
      rw [if_pos (by simp), this]
      obtain ⟨r, b, e, h1, h2⟩ := lineHead_decomp (c :: cs)
      have hlr : '\n' ∉ l ++ r := by simp [hl, h1]
      have ht : (l ++ (c :: cs)).takeWhile (· ≠ '\n') = l ++ r := by
        rw [e, ← List.append_assoc]; exact takeWhile_line hlr h2
      have hc : blen (a ++ l ++ []) - blen a = blen l := by simp
      simp only [columnOnLine, ht, hc, columnInLine_ok]
  | cons c cs ih =>
    simp only [List.cons_append, scanPos]
    have hp := c.utf8Size_pos
    rw [if_neg (by simp; omega)]
    split
    · rename_i hc; subst hc
      have := ih (a ++ l ++ ['\n']) [] (.inr ⟨_, rfl⟩) (by simp)
      simp only [List.append_nil] at this
      have e1 : blen (a ++ l ++ ['\n']) = blen (a ++ l) + 1 := by simp [nl_size]; omega
      have e2 : countNl (a ++ l ++ ['\n']) = countNl a + 1 := by
        simp only [countNl_append, countNl_noNl hl]; simp [countNl]
      rw [e1, e2] at this
      simpa using this
    · rename_i hc
      have := ih a (l ++ [c]) ha (by simp [hl]; exact fun h => hc h.symm)
      have e1 : blen (a ++ (l ++ [c])) = blen (a ++ l) + c.utf8Size := by simp; omega
      rw [e1] at this
      simpa using this

/-! ### the binary search -/

theorem lineStartsFrom_gt (i : Nat) (s : Str) : ∀ x ∈ lineStartsFrom i s, i < x := by
  induction s generalizing i with
  | nil => simp [lineStartsFrom]
  | cons c cs ih =>
    intro x hx
    simp only [lineStartsFrom] at hx
    split at hx
    · rcases List.mem_cons.1 hx with rfl | hx
      · omega
      · have := ih _ x hx; omega
    · have := ih _ x hx; omega

theorem lineStartsFrom_le (i : Nat) (s : Str) : ∀ x ∈ lineStartsFrom i s, x ≤ i + blen s := by
  induction s generalizing i with
  | nil => simp [lineStartsFrom]
  | cons c cs ih =>
    intro x hx
    have hp := c.utf8Size_pos
    simp only [lineStartsFrom, blen_cons] at hx ⊢
    split at hx
    · rcases List.mem_cons.1 hx with rfl | hx
      · omega
      · have := ih _ x hx; omega
    · have := ih _ x hx; omega

theorem lineStartsFrom_sorted (i : Nat) (s : Str) : (lineStartsFrom i s).Pairwise (· < ·) := by
  induction s generalizing i with
  | nil => simp [lineStartsFrom]
  | cons c cs ih =>
    simp only [lineStartsFrom]
    split
    · exact List.pairwise_cons.2 ⟨fun x hx => lineStartsFrom_gt _ _ x hx, ih _⟩
    · exact ih _

theorem computeLineStarts_sorted (s : Str) : (computeLineStarts s).Pairwise (· < ·) :=
  List.pairwise_cons.2 ⟨fun x hx => lineStartsFrom_gt _ _ x hx, lineStartsFrom_sorted _ _⟩

/-- On a strictly increasing list split into elements `≤ x` and elements `> x`, the line found is the last
element `≤ x`. -/
theorem binarySearch_line {xs ys : List Nat} {x : Nat} (hs : (xs ++ ys).Pairwise (· < ·))
    (h1 : ∀ a ∈ xs, a ≤ x) (h2 : ∀ a ∈ ys, x < a) :
    lineIndex (binarySearch (xs ++ ys) x) = xs.length - 1 := by
  unfold binarySearch
  cases hf : (xs ++ ys).findIdx? (· == x) with
  | some i =>
    simp only [lineIndex]
    obtain ⟨hlt, he, _⟩ := List.findIdx?_eq_some_iff_getElem.1 hf
    simp at he
    have hi : i < xs.length := by
      by_cases hi : i < xs.length
      · exact hi
      · exfalso
        have hi' : i < xs.length + ys.length := by simpa using hlt
        have : (xs ++ ys)[i] = ys[i - xs.length] := by
          rw [List.getElem_append_right (by omega)]
        rw [this] at he
        have := h2 _ (List.getElem_mem (l := ys) (n := i - xs.length) (by omega))
        omega
    by_cases hl : i = xs.length - 1
    · exact hl
    · exfalso
      have hlt2 : i < xs.length - 1 := by omega
      have := List.pairwise_iff_getElem.1 hs i (xs.length - 1) hlt (by simp; omega) hlt2
      have e2 : (xs ++ ys)[xs.length - 1]'(by simp; omega) = xs[xs.length - 1] := by
        rw [List.getElem_append_left (by omega)]
      rw [he, e2] at this
      have := h1 _ (List.getElem_mem (l := xs) (n := xs.length - 1) (by omega))
      omega
  | none =>
    simp only [lineIndex]
    rw [List.findIdx?_eq_none_iff] at hf
    have hc : (xs ++ ys).countP (· < x) = xs.length := by
      rw [List.countP_append]
      have e1 : xs.countP (· < x) = xs.length := by
        rw [List.countP_eq_length]
        intro a ha
        have := hf a (List.mem_append_left _ ha)
        have := h1 a ha
        simp at *; omega
      have e2 : ys.countP (· < x) = 0 := by
        rw [List.countP_eq_zero]
        intro a ha
        have := h2 a ha
        simp; omega
      omega
    rw [hc]
    split <;> omega

theorem line_of_offset {a l p : Str} (hl : '\n' ∉ l) :
    lineIndex (binarySearch (computeLineStarts (a ++ l ++ p)) (blen (a ++ l))) = countNl a := by
  have hs := computeLineStarts_sorted (a ++ l ++ p)
  have e : computeLineStarts (a ++ l ++ p) =
      (0 :: lineStartsFrom 0 a) ++ lineStartsFrom (blen (a ++ l)) p := by
    unfold computeLineStarts
    rw [lineStartsFrom_append, lineStartsFrom_append, lineStartsFrom_noNl _ hl]
    simp
  rw [e] at hs ⊢
  rw [binarySearch_line hs]
  · simp [lineStartsFrom_length]
  · intro x hx
    rcases List.mem_cons.1 hx with rfl | hx
    · omega
    · have := lineStartsFrom_le _ _ x hx; simp; omega
  · intro x hx
    exact lineStartsFrom_gt _ _ x hx

end Jarl
