import Verif.Location
/-!
# C17: reported row and column
-/
namespace Jarl

namespace Spec

/-- The text after the last newline (the whole text if there is none). -/
def lastLine (s : Str) : Str := (s.reverse.takeWhile (· ≠ '\n')).reverse

/-- The (row, column) of the byte that follows `pre`: 1 + the number of newlines before it, and the byte
length of the line up to it. -/
def rowCol (pre : Str) : Nat × Nat := (1 + countNl pre, blen (lastLine pre))

end Spec
open Spec

theorem newLinesFrom_append (b : Nat) (s t : Str) :
    newLinesFrom b (s ++ t) = newLinesFrom b s ++ newLinesFrom (b + blen s) t := by
  induction s generalizing b with
  | nil => simp [newLinesFrom]
  | cons c cs ih =>
    simp only [List.cons_append, newLinesFrom, blen_cons]
    split <;> simp [ih, Nat.add_assoc]

theorem newLinesFrom_ge (b : Nat) (s : Str) : ∀ x ∈ newLinesFrom b s, b ≤ x := by
  induction s generalizing b with
  | nil => simp [newLinesFrom]
  | cons c cs ih =>
    intro x hx
    simp only [newLinesFrom] at hx
    split at hx
    · rcases List.mem_cons.mp hx with rfl | hx
      · exact Nat.le_refl _
      · have := ih _ x hx; omega
    · have := ih _ x hx; omega

theorem newLinesFrom_lt (b : Nat) (s : Str) : ∀ x ∈ newLinesFrom b s, x < b + blen s := by
  induction s generalizing b with
  | nil => simp [newLinesFrom]
  | cons c cs ih =>
    intro x hx
    have hp := c.utf8Size_pos
    simp only [newLinesFrom, blen_cons] at hx ⊢
    split at hx
    · rcases List.mem_cons.mp hx with rfl | hx
      · omega
      · have := ih _ x hx; omega
    · have := ih _ x hx; omega

theorem newLinesFrom_length (b : Nat) (s : Str) : (newLinesFrom b s).length = countNl s := by
  unfold countNl
  induction s generalizing b with
  | nil => rfl
  | cons c cs ih =>
    simp only [newLinesFrom, List.countP_cons]
    split
    · rename_i h; simp [h, ih]
    · rename_i h; simp [h, ih]

theorem newLinesFrom_no {b : Nat} {s : Str} (h : '\n' ∉ s) : newLinesFrom b s = [] := by
  apply List.eq_nil_of_length_eq_zero
  rw [newLinesFrom_length]
  unfold countNl
  rw [List.countP_eq_zero]
  intro c hc
  simp
  rintro rfl
  exact h hc

/-- Every text is one line, or ends with a line after a newline. -/
theorem lastLine_cases (s : Str) :
    ('\n' ∉ s ∧ lastLine s = s) ∨ (∃ a l, s = a ++ '\n' :: l ∧ '\n' ∉ l ∧ lastLine s = l) := by
  cases h : splitLast '\n' s with
  | none =>
    left
    have hn := splitLast_none.mp h
    refine ⟨hn, ?_⟩
    unfold lastLine
    have := List.takeWhile_append_of_pos (p := (· ≠ '\n')) (l₁ := s.reverse) (l₂ := []) (by
      intro c hc
      simp
      rintro rfl
      exact hn (List.mem_reverse.mp hc))
    simp only [List.append_nil, List.takeWhile_nil] at this
    rw [this, List.reverse_reverse]
  | some p =>
    obtain ⟨a, l⟩ := p
    right
    obtain ⟨rfl, hn⟩ := splitLast_iff.mp h
    refine ⟨a, l, rfl, hn, ?_⟩
    unfold lastLine
    rw [List.reverse_append, List.reverse_cons, List.append_assoc]
    rw [List.takeWhile_append_of_pos]
    · simp
    · intro c hc
      simp
      rintro rfl
      exact hn (List.mem_reverse.mp hc)

theorem newLines_before (pre suf : Str) (hs : suf.head? ≠ some '\n') :
    (findNewLines (pre ++ suf)).filter (fun x => x ≤ blen pre) = newLinesFrom 0 pre := by
  unfold findNewLines
  rw [newLinesFrom_append, List.filter_append]
  have h1 : (newLinesFrom 0 pre).filter (fun x => x ≤ blen pre) = newLinesFrom 0 pre := by
    rw [List.filter_eq_self]
    intro x hx
    have := newLinesFrom_lt 0 pre x hx
    simp; omega
  have h2 : (newLinesFrom (0 + blen pre) suf).filter (fun x => x ≤ blen pre) = [] := by
    rw [List.filter_eq_nil_iff]
    intro x hx
    cases suf with
    | nil => cases hx
    | cons c cs =>
      simp at hs
      have hp := c.utf8Size_pos
      simp only [newLinesFrom, if_neg hs] at hx
      have := newLinesFrom_ge _ _ x hx
      simp; omega
  rw [h1, h2, List.append_nil]

/-- C17, row: for a diagnostic that does not start on a newline, the reported row is 1 + the number of
newlines before it. -/
theorem C17_row (pre suf : Str) (hs : suf.head? ≠ some '\n') {r c : Nat}
    (h : findRowCol (blen pre) (findNewLines (pre ++ suf)) = some (r, c)) : r = 1 + countNl pre := by
  unfold findRowCol at h
  simp only [newLines_before pre suf hs, newLinesFrom_length] at h
  split at h
  · cases h; omega
  · split at h
    · cases h
    · cases h; omega

/-- C17 (partial): row and column are correct for a diagnostic that does not start on a newline, unless
the only newline before it is the first byte of the file. Missing from the full claim: files starting
with a newline, on whose second row the column is one too large (`C17_false_leading_newline`). -/
theorem C17_row_col_partial (pre suf : Str) (hs : suf.head? ≠ some '\n')
    (hfirst : ∀ l, pre = '\n' :: l → '\n' ∈ l) :
    findRowCol (blen pre) (findNewLines (pre ++ suf)) = some (rowCol pre) := by
  unfold findRowCol rowCol
  simp only [newLines_before pre suf hs, newLinesFrom_length]
  rcases lastLine_cases pre with ⟨hn, hl⟩ | ⟨a, l, rfl, hn, hl⟩
  · rw [newLinesFrom_no hn, hl]
    simp [Nat.add_comm]
  · have hlist : newLinesFrom 0 (a ++ '\n' :: l) = newLinesFrom 0 a ++ [blen a] := by
      rw [newLinesFrom_append]
      simp only [newLinesFrom, if_true, newLinesFrom_no hn, Nat.zero_add]
    rw [hlist, hl]
    simp only [List.getLast?_append, List.getLast?_singleton, Option.some_or, Option.getD_some]
    have ha : blen a ≠ 0 := by
      intro h0
      cases a with
      | nil => exact hn (hfirst l rfl)
      | cons c cs => simp at h0; have := c.utf8Size_pos; omega
    rw [if_neg ha]
    have hlen : blen (a ++ '\n' :: l) = blen a + 1 + blen l := by
      simp [Char.utf8Size]; omega
    rw [if_neg (by omega), hlen]
    congr 2
    · omega
    · omega

/-- The full claim C17 fails of the code on a file that starts with a newline. -/
theorem C17_false_leading_newline :
    findRowCol 1 (findNewLines (cs! "\nx == NA")) = some (2, 1) ∧ rowCol (cs! "\n") = (2, 0) := by decide

/-- For `.R` files jarl only looks for newlines in the text of the parsed expressions (utils.rs:39-50), a
prefix `root` of the file: locations inside it are the same as with the whole file. -/
theorem C17_prefix_suffices (pre suf tail : Str) (hs : suf.head? ≠ some '\n') (hne : suf ≠ []) :
    findRowCol (blen pre) (findNewLines (pre ++ suf)) =
    findRowCol (blen pre) (findNewLines (pre ++ suf ++ tail)) := by
  unfold findRowCol
  have h2 : (suf ++ tail).head? ≠ some '\n' := by
    cases suf with
    | nil => exact absurd rfl hne
    | cons c cs => simpa using hs
  rw [newLines_before pre suf hs, List.append_assoc, newLines_before pre (suf ++ tail) h2]

example : findRowCol 9 (findNewLines (cs! "a\nbé <- 1; x == NA")) = some (2, 7) := by decide
example : rowCol (cs! "a\nbé <- ") = (2, 7) := by decide

end Jarl
