import Verif.Lemmas.Fix
/-!
# C18-C20: one fix pass
-/
namespace Jarl
open Spec

/-- C18 (partial): if the fixes that are not placeholders (`real`, at any positions among the
placeholders of unfixable diagnostics) have increasing disjoint ranges and change the length equally in
characters and bytes, then the resulting text is the original in which the ranges of some of them are
replaced and everything else is kept; if no skipped fix is reported, all of them were applied.
Missing from the full claim: fixes that change the number of UTF-8 continuation bytes, for which it is
false (`C18_false_non_ascii`). -/
theorem C18_rewrites_only_fixed_ranges_partial (doc : Str) (fixes real : List Fix) (full : Str)
    (isReal : Fix → Bool) (hreal : real = fixes.filter isReal)
    (hplace : ∀ f ∈ fixes, isReal f = false → IsPlaceholder f)
    (hdisj : Rewritten 0 doc real full)
    (hbytes : ∀ f ∈ real, SameExtraBytes doc f)
    {skipped : Bool} {out : Str} (h : applyFixes fixes doc = some (skipped, out)) :
    ∃ applied, applied.Sublist real ∧ Rewritten 0 doc applied out ∧
      (skipped = false → applied = real) := by
  unfold applyFixes at h
  simp only [] at h
  split at h
  · cases h
  · rename_i st hst
    cases h
    obtain ⟨extra, x1, x2, _, x4⟩ :=
      fixLoop_disjoint fixes (FixInv.init doc) hdisj hbytes ⟨isReal, hreal, hplace⟩ hst
    exact ⟨extra, x1, by simpa using x2, x4⟩

/-- C18, totality: without placeholders such a pass never panics. -/
theorem C18_no_panic_partial (doc : Str) (fixes : List Fix) (full : Str)
    (hdisj : Rewritten 0 doc fixes full) (hbytes : ∀ f ∈ fixes, SameExtraBytes doc f) :
    ∃ r, applyFixes fixes doc = some r := by
  obtain ⟨st, hst⟩ := fixLoop_total fixes (FixInv.init doc) hdisj hbytes
  exact ⟨(st.skipped, st.content), by simp [applyFixes, hst]⟩

/-- The result of a rewrite is determined by the fixes: two rewrites of a text by the same fixes agree. -/
theorem Rewritten_unique {pos text fs o o'} (h : Rewritten pos text fs o) (h' : Rewritten pos text fs o') :
    o = o' := by
  induction h generalizing o' with
  | done => cases h'; rfl
  | @fix pos keep old rest f fs out h1 h2 h3 ih =>
    generalize ht : keep ++ old ++ rest = text at h'
    cases h' with
    | @fix _ keep' old' rest' _ _ out' h1' h2' h3' =>
      have hk : blen keep = blen keep' := by omega
      have e1 : splitAtByte (blen keep) (keep ++ (old ++ rest)) = some (keep, old ++ rest) := splitAtByte_append _ _
      have e2 : splitAtByte (blen keep') (keep' ++ (old' ++ rest')) = some (keep', old' ++ rest') := splitAtByte_append _ _
      rw [← List.append_assoc, ht, hk, List.append_assoc, e2] at e1
      simp only [Option.some.injEq, Prod.mk.injEq] at e1
      obtain ⟨rfl, e3⟩ := e1
      have ho : blen old = blen old' := by omega
      have e4 : splitAtByte (blen old) (old ++ rest) = some (old, rest) := splitAtByte_append _ _
      have e5 : splitAtByte (blen old') (old' ++ rest') = some (old', rest') := splitAtByte_append _ _
      rw [← e3, ho, e5] at e4
      simp only [Option.some.injEq, Prod.mk.injEq] at e4
      obtain ⟨rfl, rfl⟩ := e4
      rw [ih h3']

/-! Witness: two disjoint fixes (with a placeholder in between) in a text with a non-ASCII character. -/

def exDoc : Str := cs! "any(is.na(é)); x = T"
def exFixes : List Fix := [⟨cs! "anyNA(é)", 0, 14, false⟩, Fix.empty, ⟨cs! "FALSE", 20, 21, false⟩]

/-- The fixes of the example are disjoint. -/
example : Rewritten 0 exDoc [⟨cs! "anyNA(é)", 0, 14, false⟩, ⟨cs! "FALSE", 20, 21, false⟩]
    (cs! "anyNA(é); x = FALSE") := by
  refine .fix (keep := []) (old := cs! "any(is.na(é))") (rest := cs! "; x = T")
    (out := cs! "; x = FALSE") rfl (by decide) ?_
  exact .fix (keep := cs! "; x = ") (old := cs! "T") (rest := []) (out := []) (by decide) (by decide) .done

/-- The pass skips nothing but flags the placeholder. -/
example : applyFixes exFixes exDoc = some (true, cs! "anyNA(é); x = FALSE") := by decide

/-- The full claim C18 fails of the code: after a fix that removes a two-byte character the following,
disjoint, fix is applied one byte too far to the right. -/
theorem C18_false_non_ascii :
    ∃ doc fixes full out, Rewritten 0 doc fixes full ∧ applyFixes fixes doc = some (false, out) ∧ out ≠ full := by
  refine ⟨cs! "é12345", [⟨cs! "e", 0, 2, false⟩, ⟨cs! "X", 4, 5, false⟩], cs! "e12X45", cs! "e123X5", ?_, by decide, by decide⟩
  refine .fix (keep := []) (old := cs! "é") (rest := cs! "12345") (out := cs! "12X45") rfl (by decide) ?_
  exact .fix (keep := cs! "12") (old := cs! "3") (rest := cs! "45") (out := cs! "45") (by decide) (by decide) .done

/-! ## C19 -/

/-- C19 (partial): in any state of the loop, after fix `f` has been applied with accumulated length change
`before` (in characters), a fix `g` that starts before the end of `f`'s range is skipped and flagged —
provided `f` did not change the length by more than `before`. Missing from the full claim: fixes that
lengthen the text more than that; there it is false (`C19_false_when_growing`). -/
theorem C19_overlap_skipped_partial (n : Int) (st st' : FixState) (f g : Fix)
    (happ : fixStep n st f = some st') (hnot : st'.skipped = st.skipped)
    (happlied : st.lastPos ≤ f.start + (st.newLen - n))
    (hover : g.start < f.stop)
    (hgrow : st'.newLen - st.newLen ≤ st.newLen - n) :
    fixStep n st' g = some { st' with skipped := true } := by
  unfold fixStep at happ
  simp only [] at happ
  rw [if_neg (by omega)] at happ
  split at happ
  · cases happ
  · split at happ
    · cases happ
    · cases happ
      unfold fixStep
      simp only [] at *
      rw [if_pos (by omega)]

/-- The full claim C19 fails of the code: the first fix lengthens the text, and a second fix nested in
its range is applied anyway, in the same pass, without being flagged. -/
theorem C19_false_when_growing :
    ∃ doc f g out, f.start ≤ g.start ∧ g.stop ≤ f.stop ∧ g.start < g.stop ∧
      applyFixes [f, g] doc = some (false, out) ∧ f.content ≠ [] ∧ g.content ≠ [] :=
  ⟨cs! "f(g(x))", ⟨cs! "function(y) y", 0, 7, false⟩, ⟨cs! "h(z)", 2, 6, false⟩, _, by decide, by decide, by decide,
    rfl, by decide, by decide⟩

/-- The same defect on the fixes the `any_is_na` and `numeric_leading_zero` rules produce for four lines of
R code: the last line `any(is.na(.5))` becomes `anyNA0.55)`, which does not even parse. -/
theorem C19_false_corrupts_file :
    applyFixes [⟨cs! "anyNA(x)", 0, 13, false⟩, ⟨cs! "anyNA(x)", 14, 27, false⟩,
      ⟨cs! "anyNA(x)", 28, 41, false⟩, ⟨cs! "anyNA(.5)", 42, 56, false⟩, ⟨cs! "0.5", 52, 54, false⟩]
      (cs! "any(is.na(x))\nany(is.na(x))\nany(is.na(x))\nany(is.na(.5))") =
    some (true, cs! "anyNA(x)\nany(is.na(x))\nanyNA(x)\nanyNA0.55)") := by decide

example : applyFixes [⟨cs! "x", 0, 5, false⟩, ⟨cs! "yy", 2, 4, false⟩] (cs! "abcdefgh") = some (true, cs! "xfgh") := by
  decide

/-- Exactly when a fix is skipped: after `f` has been applied, with the accumulated length change `before` (in characters) at that moment, the next fix `g` is skipped if and only if
its beginning, moved by what `f` adds, is in front of the end of `f` moved by `before`. (It should be: if it begins in front of the end of `f`.) -/
theorem C19_exact (n : Int) (st st' : FixState) (f g : Fix) (happ : fixStep n st f = some st') (happlied : st.lastPos ≤ f.start + (st.newLen - n)) :
    fixStep n st' g = some { st' with skipped := true } ∧ g.start + (st'.newLen - st.newLen) < f.stop + (st.newLen - n) ∨
    f.stop + (st.newLen - n) ≤ g.start + (st'.newLen - st.newLen) ∧ (∀ st2, fixStep n st' g = some st2 → st2.skipped = st'.skipped ∧
      replaceRange st'.content ((g.start : Int) + (st'.newLen - n)).toNat ((g.stop : Int) + (st'.newLen - n)).toNat g.content = some st2.content) := by
  unfold fixStep at happ
  simp only [] at happ
  rw [if_neg (by omega)] at happ
  split at happ
  · cases happ
  · split at happ
    · cases happ
    · cases happ
      rename_i c _
      by_cases hlt : (g.start : Int) + ((c.length : Int) - n) < f.stop + (st.newLen - n) + (st.newLen - n)
      · left
        unfold fixStep
        simp only [] at *
        rw [if_pos hlt]
        exact ⟨rfl, by omega⟩
      · right
        refine ⟨by simp only; omega, ?_⟩
        intro st2 h
        unfold fixStep at h
        simp only [] at *
        rw [if_neg hlt] at h
        split at h
        · cases h
        · split at h
          · cases h
          · rename_i c2 hc2
            cases h
            exact ⟨rfl, hc2⟩

theorem fixLoop_append (n : Int) (a b : List Fix) (st : FixState) : fixLoop n (a ++ b) st = (fixLoop n a st).bind (fixLoop n b) := by
  induction a generalizing st with
  | nil => rfl
  | cons f a ih =>
    simp only [List.cons_append, fixLoop]
    cases fixStep n st f with
    | none => rfl
    | some st1 => exact ih st1

theorem fixLoop_placeholders (doc : Str) (fixes : List Fix) (h : ∀ f ∈ fixes, IsPlaceholder f) :
    fixLoop doc.length fixes ⟨doc, 0, false, doc.length⟩ = some ⟨doc, 0, false, doc.length⟩ := by
  induction fixes with
  | nil => rfl
  | cons f fs ih =>
    obtain ⟨h1, h2, h3⟩ := h f (by simp)
    have hstep : fixStep doc.length ⟨doc, 0, false, doc.length⟩ f = some ⟨doc, 0, false, doc.length⟩ := by
      unfold fixStep
      simp only [h1, h2, h3]
      have hr : replaceRange doc 0 0 [] = some doc := by
        simpa using replaceRange_append [] [] doc []
      simp [hr]
    simp only [fixLoop, hstep]
    exact ih (fun g hg => h g (by simp [hg]))

/-- C18 and C19 for fixes that may overlap, in any order, among placeholders: if they are apart (and change the length equally in characters and bytes), the text that is left is the
original with the ranges of some of them replaced, never two that overlap, and nothing else changed. The first of them is always carried out, and all of them are if no skipped fix is reported. -/
theorem C19_apart (doc : Str) (fixes : List Fix) (isReal : Fix → Bool) (hfix : ∀ f ∈ fixes, if isReal f then InText doc f ∧ SameExtraBytes doc f else IsPlaceholder f)
    (hap : Apart 0 (fixes.filter isReal)) {skipped : Bool} {out : Str} (h : applyFixes fixes doc = some (skipped, out)) :
    ∃ applied, applied.Sublist (fixes.filter isReal) ∧ applied.head? = (fixes.filter isReal).head? ∧ Rewritten 0 doc applied out ∧ (skipped = false → applied = fixes.filter isReal) := by
  unfold applyFixes at h
  simp only [] at h
  split at h
  · cases h
  · rename_i st hst
    cases h
    by_cases hall : ∀ f ∈ fixes, isReal f = false
    · have hnil : fixes.filter isReal = [] := by
        rw [List.filter_eq_nil_iff]
        intro f hf; simp [hall f hf]
      rw [fixLoop_placeholders doc fixes (fun f hf => by have := hfix f hf; rw [hall f hf] at this; simpa using this)] at hst
      cases hst
      rw [hnil]
      exact ⟨[], .slnil, rfl, .done, fun _ => rfl⟩
    · have : ∃ a d b, fixes = a ++ d :: b ∧ (∀ f ∈ a, isReal f = false) ∧ isReal d = true := by
        clear hst hap hfix
        induction fixes with
        | nil => exact absurd (fun f hf => by cases hf) hall
        | cons f fs ih =>
          cases hf : isReal f with
          | true => exact ⟨[], f, fs, rfl, fun _ h => (by cases h), hf⟩
          | false =>
            obtain ⟨a, d, b, rfl, ha, hd⟩ := ih (fun h => hall (by
              intro g hg
              rcases List.mem_cons.mp hg with rfl | hg
              · exact hf
              · exact h g hg))
            exact ⟨f :: a, d, b, rfl, (by
              intro g hg
              rcases List.mem_cons.mp hg with rfl | hg
              · exact hf
              · exact ha g hg), hd⟩
      obtain ⟨a, d, b, rfl, ha, hd⟩ := this
      have hfl : (a ++ d :: b).filter isReal = d :: b.filter isReal := by
        rw [List.filter_append, List.filter_cons_of_pos hd, List.filter_eq_nil_iff.mpr (by intro f hf; simp [ha f hf])]
        rfl
      rw [hfl] at hap ⊢
      rw [fixLoop_append, fixLoop_placeholders doc a (fun f hf => by have := hfix f (by simp [hf]); rw [ha f hf] at this; simpa using this)] at hst
      simp only [Option.bind, fixLoop] at hst
      have hdd := hfix d (by simp)
      rw [hd] at hdd
      simp only [if_true] at hdd
      rcases fixStep_behind (FixInv.init doc) hdd.1 hdd.2 (by simp) with hs | ⟨st2, C', P', rest', hs, inv2, hC, hsk, hlast, hnew⟩
      · exfalso
        unfold fixStep at hs
        simp only [] at hs
        rw [if_neg (by omega)] at hs
        split at hs
        · cases hs
        · split at hs
          · cases hs
          · simp only [Option.some.injEq, FixState.mk.injEq, Bool.false_eq_true, false_and, and_false] at hs
      · rw [hs] at hst
        have hle := hdd.1.1
        have hl2 : -((0 + shrinkage d : Nat) : Int) ≤ st2.newLen - doc.length := by rw [hnew]; unfold shrinkage; simp only; omega
        have hg : ∀ g ∈ b.filter isReal, g.start < blen C' → g.start + (st2.newLen - doc.length) < st2.lastPos := by
          intro g hm hlt
          have := hap.1 g hm (by omega)
          rw [hnew, hlast]
          simp only
          omega
        obtain ⟨extra, x1, x2, x3, x4⟩ := fixLoop_apart isReal b inv2 (fun f hf => hfix f (by simp [hf])) hl2 hap.2 hg hst
        exact ⟨d :: extra, .cons_cons _ x1, rfl, by simpa using x2, fun hf => by rw [x4 hf]⟩

/-- Without placeholders it does not panic. -/
theorem C19_apart_no_panic (doc : Str) (fixes : List Fix) (hfix : ∀ f ∈ fixes, InText doc f ∧ SameExtraBytes doc f) (hap : Apart 0 fixes) : ∃ r, applyFixes fixes doc = some r := by
  obtain ⟨st, hst⟩ := fixLoop_apart_total fixes (FixInv.init doc) hfix (by simp) hap (fun g _ h => by simp at h)
  exact ⟨(st.skipped, st.content), by simp [applyFixes, hst]⟩

/-- Two nested fixes and one behind them, which are apart: the outer one and the last are carried out. -/
def nestedDoc : Str := cs! "any(is.na(x == NA)); y <- T"
def nestedFixes : List Fix := [⟨cs! "anyNA(x == NA)", 0, 19, false⟩, ⟨cs! "is.na(x)", 10, 17, false⟩, Fix.empty, ⟨cs! "TRUE", 26, 27, false⟩]
example : Apart 0 (nestedFixes.filter (fun f => f.stop ≠ 0)) := by simp [nestedFixes, Apart, Fix.empty]; decide
example : applyFixes nestedFixes nestedDoc = some (true, cs! "anyNA(x == NA); y <- TRUE") := by decide

/-- A skipped fix leaves the text, and a pass whose first fix is applied and whose others are all skipped
reports the skip: the flag is never cleared. -/
theorem C19_flag_is_sticky (n : Int) (fs : List Fix) (st st' : FixState) (h : fixLoop n fs st = some st')
    (hs : st.skipped = true) : st'.skipped = true := by
  induction fs generalizing st with
  | nil => simp only [fixLoop, Option.some.injEq] at h; rw [← h]; exact hs
  | cons f fs ih =>
    simp only [fixLoop] at h
    split at h
    · cases h
    · rename_i st1 h1
      refine ih st1 h ?_
      unfold fixStep at h1
      simp only [] at h1
      split at h1
      · cases h1; rfl
      · split at h1
        · cases h1
        · split at h1
          · cases h1
          · cases h1; exact hs

/-! ## C20 -/

/-- C20: when no diagnostic carries a fix the pass changes nothing and reports nothing skipped. -/
theorem C20_no_fix_no_change (doc : Str) (fixes : List Fix) (h : ∀ f ∈ fixes, IsPlaceholder f) :
    applyFixes fixes doc = some (false, doc) := by
  have loop : fixLoop doc.length fixes ⟨doc, 0, false, doc.length⟩ = some ⟨doc, 0, false, doc.length⟩ := by
    induction fixes with
    | nil => rfl
    | cons f fs ih =>
      obtain ⟨h1, h2, h3⟩ := h f (by simp)
      have hstep : fixStep doc.length ⟨doc, 0, false, doc.length⟩ f = some ⟨doc, 0, false, doc.length⟩ := by
        unfold fixStep
        simp only [h1, h2, h3]
        have hr : replaceRange doc 0 0 [] = some doc := by
          simpa using replaceRange_append [] [] doc []
        simp [hr]
      simp only [fixLoop, hstep]
      exact ih (fun g hg => h g (by simp [hg]))
  simp [applyFixes, loop]

example : IsPlaceholder Fix.empty := ⟨rfl, rfl, rfl⟩
example : applyFixes [Fix.empty, Fix.empty] (cs! "x == NA") = some (false, cs! "x == NA") := by decide

end Jarl
