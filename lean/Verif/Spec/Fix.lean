import Verif.Fix
/-!
# Specification for C18-C20: rewriting a text at disjoint ranges
-/
namespace Jarl.Spec

/-- `Rewritten pos text fixes out`: `text` is the part of a document that starts at byte `pos`; the ranges
of `fixes` (in document offsets) are increasing and disjoint, lie in `text` at character boundaries, and
`out` is `text` with each range replaced by the fix's content and everything else kept. -/
inductive Rewritten : Nat → Str → List Fix → Str → Prop
  | done {pos text} : Rewritten pos text [] text
  | fix {pos keep old rest f fs out} :
      f.start = pos + blen keep → f.stop = f.start + blen old →
      Rewritten f.stop rest fs out →
      Rewritten pos (keep ++ old ++ rest) (f :: fs) (keep ++ f.content ++ out)

/-- The fix replaces text by text with the same number of UTF-8 continuation bytes, so that its length
change is the same in characters and in bytes (always true for ASCII-only changes). -/
def SameExtraBytes (doc : Str) (f : Fix) : Prop :=
  ∀ old, slice f.start f.stop doc = some old →
    blen f.content + old.length = blen old + f.content.length

/-- The placeholder carried by a diagnostic without fix. -/
def IsPlaceholder (f : Fix) : Prop := f.content = [] ∧ f.start = 0 ∧ f.stop = 0

/-- The range of the fix lies in the text, at character boundaries. -/
def InText (doc : Str) (f : Fix) : Prop := f.start ≤ f.stop ∧ ∃ old, slice f.start f.stop doc = some old

/-- By how many bytes the fix makes the text shorter (0 if longer). -/
def shrinkage (f : Fix) : Nat := (f.stop - f.start) - blen f.content

/-- Where a fix begins inside (or in front of the end of) the range of an earlier one, it begins so far in front of that end that all the text lost up to there, with what the earlier
one itself adds, does not close the distance. `lost`: what the fixes in front of the list may make the text shorter. Always true of fixes that do not overlap. -/
def Apart : Nat → List Fix → Prop
  | _, [] => True
  | lost, f :: fs => (∀ g ∈ fs, g.start < f.stop → g.start + blen f.content + lost < f.stop + (f.stop - f.start)) ∧ Apart (lost + shrinkage f) fs

end Jarl.Spec
