import Verif.Props.RText
import Verif.Props.RGrammar
import Verif.Props.LintFix
import Verif.Props.PackageNamespace
/-!
# C66: fixing the text of a file, main theorems and examples
-/
namespace Jarl
open Spec

/-- A text has at most one reading. -/
theorem C66_one_reading {text : Str} {src src' : Src} {p q : Node} (h : ReadsAs text src p) (h' : ReadsAs text src' q) : src = src' ∧ p = q := by
  have : src = src' := by have := h.1.symm.trans h'.1; cases this; rfl
  subst this
  exact ⟨rfl, C50_grammar_unambiguous h.2 h'.2⟩

theorem splitOn_has (s : Str) (c : Char) (hc : c ≠ '\n') : ((splitOn '\n' s).any (·.contains c)) = true ↔ c ∈ s := by
  rcases splitOn_cases '\n' s with ⟨_, h⟩ | ⟨a, b, rfl, _, h⟩
  · simp [h]
  · rw [h, List.any_cons, Bool.or_eq_true, splitOn_has b c hc]
    simp [hc]
termination_by s.length

/-- What the rules know of the text between two tokens: whether there is a line break, a comment in front of the first line break, a comment behind it. -/
theorem C66_gaps (s : Str) : ((gapOf s).nl = true ↔ '\n' ∈ s) ∧ ((gapOf s).trail = true ↔ ∃ a b, s = a ++ '\n' :: b ∧ '\n' ∉ a ∧ '#' ∈ a) ∧
    ((gapOf s).own = true ↔ ∃ a b, s = a ++ '\n' :: b ∧ '\n' ∉ a ∧ '#' ∈ b) := by
  rcases splitOn_cases '\n' s with ⟨hn, h⟩ | ⟨a, b, rfl, ha, h⟩
  · have hg : gapOf s = .none := by unfold gapOf; rw [h]
    rw [hg]
    refine ⟨⟨fun h => (nomatch h), fun h => absurd h hn⟩, ⟨fun h => (nomatch h), ?_⟩, ⟨fun h => (nomatch h), ?_⟩⟩ <;>
      (rintro ⟨a, b, rfl, _⟩; exact absurd (by simp) hn)
  · have hu : ∀ a' b', a ++ '\n' :: b = a' ++ '\n' :: b' → '\n' ∉ a' → a = a' ∧ b = b' := by
      intro a' b' e ha'
      rcases List.append_eq_append_iff.mp e with ⟨as, h1, h2⟩ | ⟨bs, h1, h2⟩
      · cases as with
        | nil => simp at h1 h2; exact ⟨h1.symm, h2⟩
        | cons c as => simp at h2; rw [h1, h2.1] at ha'; simp at ha'
      · cases bs with
        | nil => simp at h1 h2; exact ⟨h1, h2.symm⟩
        | cons c bs => simp at h2; rw [h1, ← h2.1] at ha; simp at ha
    obtain ⟨x, xs, hb⟩ : ∃ x xs, splitOn '\n' b = x :: xs := by
      rcases splitOn_cases '\n' b with ⟨_, h⟩ | ⟨_, _, _, _, h⟩ <;> exact ⟨_, _, h⟩
    have hg : gapOf (a ++ '\n' :: b) = .line (a.contains '#') ((splitOn '\n' b).any (·.contains '#')) := by unfold gapOf; rw [h, hb]
    rw [hg]
    refine ⟨⟨fun _ => by simp, fun _ => rfl⟩, ?_, ?_⟩
    · show a.contains '#' = true ↔ _
      rw [List.contains_iff_mem]
      exact ⟨fun h => ⟨a, b, rfl, ha, h⟩, fun ⟨a', b', e, h1, h2⟩ => (hu _ _ e h1).1 ▸ h2⟩
    · show ((splitOn '\n' b).any (·.contains '#')) = true ↔ _
      rw [splitOn_has _ _ (by decide)]
      exact ⟨fun h => ⟨a, b, rfl, ha, h⟩, fun ⟨a', b', e, h1, h2⟩ => (hu _ _ e h1).2 ▸ h2⟩

/-- A reading loses nothing: the tokens and what is between them are the text. -/
theorem C66_lossless {text : Str} {src : Src} {p : Node} (h : ReadsAs text src p) : src.text = text := (lexN_inv _ _ _ _ h.1).1

theorem goodFix_of_rule {rules : List (Str × (Zip → Option Edit))} (hk : ∀ r ∈ rules, r ∈ keepingRules) {text : Str} {src : Src} {p : Node} (hr : ReadsAs text src p) {eds : List (Edit × Str)}
    (he : FixTexts rules p eds) : ∀ e ∈ eds, GoodFix p e.1 ∧ ∃ cs, Spells e.2 e.1.content cs ∧ Airy none cs := by
  intro e hm
  obtain ⟨⟨r, hr', z, hz, ho, hc⟩, hcs⟩ := he e hm
  exact ⟨C51_fixes_keep_structure r (hk r hr') _ p z e.1 hr.2 hz ho hc, hcs⟩

/-- Carrying out fixes of these rules as byte ranges of the file: R reads the new text, and reads it as the old program with the replaced expressions exchanged. -/
theorem C66_pass (text out : Str) (src : Src) (p : Node) (eds : List (Edit × Str)) (hr : ReadsAs text src p) (ha : Airy none src.pieces) (he : FixTexts keepingRules p eds)
    (h : Rewritten 0 text (eds.map fun e => textFix src e.1 e.2) out) :
    ∃ src' q, ReadsAs out src' q ∧ Airy none src'.pieces ∧ src'.tail = src.tail ∧ Together (eds.map (·.1)) p q :=
  let ⟨src', q, h1, h2, h3, h4, _⟩ := C66_text text src p eds out hr ha (goodFix_of_rule (fun _ h => h) hr he) h
  ⟨src', q, h1, h2, h3, h4⟩

/-- The same for any number of passes. -/
theorem C66_passes (a b : Str) (h : TextPasses keepingRules a b) (hr : ∃ src p, ReadsAs a src p ∧ Airy none src.pieces) : ∃ src p, ReadsAs b src p ∧ Airy none src.pieces := by
  induction h with
  | none => exact hr
  | more _ hs ih =>
    obtain ⟨src, p, hr, ha⟩ := ih
    obtain ⟨src', p', eds, hr', he, h⟩ := hs
    obtain ⟨rfl, rfl⟩ := C66_one_reading hr hr'
    obtain ⟨s2, q, h1, h2, _⟩ := C66_pass _ _ _ _ _ hr ha he h
    exact ⟨s2, q, h1, h2⟩

/-! ### apply_fixes -/

theorem rewritten_of_ordered (ps : List Piece) (tail : Str) : ∀ (ws : List (Swap × Bool)) (i : Nat),
    (∀ w ∈ ws, w.1.i < w.1.j) → Ordered i ps.length (ws.map fun w => (⟨w.1.i, w.1.j, []⟩ : Cut)) →
    ∃ out, Rewritten (blen (piecesText (ps.take i))) (piecesText (ps.drop i) ++ tail) (ws.map fun w => w.1.fix ps w.2) out := by
  have hle : ∀ {j n} {cs : List Cut}, Ordered j n cs → j ≤ n := by
    intro j n cs
    induction cs generalizing j with
    | nil => exact id
    | cons c cs ih => rintro ⟨a, b, c⟩; have := ih c; omega
  intro ws
  induction ws with
  | nil => intro i _ _; exact ⟨_, .done⟩
  | cons w ws ih =>
    intro i hw h
    obtain ⟨w, sk⟩ := w
    have h0 : w.i < w.j := hw _ (List.mem_cons_self ..)
    obtain ⟨h1, h2, h3⟩ := h
    simp only at h1 h2 h3
    have h4 := hle h3
    obtain ⟨out, ho⟩ := ih w.j (fun w hm => hw w (List.mem_cons_of_mem _ hm)) h3
    obtain ⟨p, hp⟩ := drop_head ps w.i (by omega)
    have hmid : ps.drop i = (ps.drop i).take (w.i - i) ++ ps.drop w.i := by
      conv => lhs; rw [← List.take_append_drop (w.i - i) (ps.drop i)]
      rw [List.drop_drop]; congr 2; omega
    have hold : ps.drop w.i = p :: (ps.drop (w.i + 1)).take (w.j - w.i - 1) ++ ps.drop w.j := by
      rw [hp, List.cons_append]
      congr 1
      conv => lhs; rw [← List.take_append_drop (w.j - w.i - 1) (ps.drop (w.i + 1))]
      rw [List.drop_drop]; congr 2; omega
    have htk : ps.take w.i = ps.take i ++ (ps.drop i).take (w.i - i) := by
      have := List.take_add (l := ps) (i := i) (j := w.i - i)
      rw [show i + (w.i - i) = w.i by omega] at this
      exact this
    have htj : ps.take w.j = ps.take w.i ++ (p :: (ps.drop (w.i + 1)).take (w.j - w.i - 1)) := by
      have := List.take_add (l := ps) (i := w.i) (j := w.j - w.i)
      rw [show w.i + (w.j - w.i) = w.j by omega] at this
      rw [this, hp]
      congr 1
      rw [show w.j - w.i = (w.j - w.i - 1) + 1 by omega, List.take_succ_cons]
      rfl
    generalize hM : (ps.drop i).take (w.i - i) = mid at *
    generalize hO : (ps.drop (w.i + 1)).take (w.j - w.i - 1) = more at *
    have es : (w.fix ps sk).start = blen (piecesText (ps.take w.i)) + blen p.gap := by simp [Swap.fix, trimmedRange, hp]
    have ee : (w.fix ps sk).stop = blen (piecesText (ps.take w.j)) := rfl
    have ht : piecesText (ps.drop i) ++ tail = (piecesText mid ++ p.gap) ++ (p.k.text ++ piecesText more) ++ (piecesText (ps.drop w.j) ++ tail) := by
      rw [hmid, hold]; simp [piecesText_append, piecesText]
    rw [ht, List.map_cons]
    refine ⟨_, .fix (f := w.fix ps sk) ?_ ?_ (by rw [ee]; exact ho)⟩
    · rw [es, htk, piecesText_append, blen_append, blen_append]; omega
    · rw [ee, es, htj, piecesText_append, blen_append]; simp only [piecesText, blen_append]; omega

/-- Fixes at different places have different byte ranges, in the same order. -/
theorem C66_ranges (text : Str) (src : Src) (p : Node) (eds : List (Edit × Str)) (hr : ReadsAs text src p) (hp : ∀ e ∈ eds, e.1.z.prog = p ∧ isExpr e.1.z.e = true)
    (ho : Ordered 0 src.toks.length (eds.map fun e => cutOf e.1)) : ∃ full, Rewritten 0 text (eds.map fun e => textFix src e.1 e.2) full := by
  obtain ⟨htext, hl, htl⟩ := lexN_inv _ _ _ _ hr.1
  let sw : Edit × Str → Swap := fun e => ⟨(beforeToks e.1.z.fs).length, (beforeToks e.1.z.fs).length + (toks e.1.z.e).length, []⟩
  have hne : ∀ e ∈ eds, (sw e).i < (sw e).j := by
    intro e he
    obtain ⟨hpe, hie⟩ := hp e he
    have hw : WF .top (plug e.1.z.fs e.1.z.e) := by have := hr.2.2.1; rw [← hpe] at this; exact this
    have h3 : 0 < (toks e.1.z.e).length := List.length_pos_iff.mpr (expr_toks hie (WF_plug hw))
    simp only [sw]; omega
  have hlen : src.pieces.length = src.toks.length := by simp [Src.toks, piecesToks]
  have ho' : Ordered 0 src.pieces.length ((eds.map fun e => (sw e, e.1.skip)).map fun w => (⟨w.1.i, w.1.j, []⟩ : Cut)) := by
    rw [hlen, List.map_map]
    have gen : ∀ (l : List (Edit × Str)) (i n : Nat), Ordered i n (l.map fun e => cutOf e.1) → Ordered i n (l.map ((fun w : Swap × Bool => (⟨w.1.i, w.1.j, []⟩ : Cut)) ∘ fun e => (sw e, e.1.skip))) := by
      intro l
      induction l with
      | nil => intro i n h; exact h
      | cons a l ih => rintro i n ⟨h1, h2, h3⟩; exact ⟨h1, h2, ih _ _ h3⟩
    exact gen _ _ _ ho
  obtain ⟨out, h⟩ := rewritten_of_ordered src.pieces src.tail (eds.map fun e => (sw e, e.1.skip)) 0 (by
    intro w hw; obtain ⟨e, he, rfl⟩ := List.mem_map.mp hw; exact hne e he) ho'
  -- the same ranges with other contents
  have swap : ∀ {pos text fs out} (gs : List Fix), Rewritten pos text fs out → gs.map (fun f => (f.start, f.stop)) = fs.map (fun f => (f.start, f.stop)) → ∃ out', Rewritten pos text gs out' := by
    intro pos text fs out gs h
    induction h generalizing gs with
    | done => intro e; cases gs with
      | nil => exact ⟨_, .done⟩
      | cons g gs => cases e
    | @fix pos keep old rest f fs out h1 h2 _ ih =>
      intro e
      cases gs with
      | nil => cases e
      | cons g gs =>
        simp only [List.map_cons, List.cons.injEq, Prod.mk.injEq] at e
        obtain ⟨out', h'⟩ := ih gs e.2
        exact ⟨_, .fix (by rw [e.1.1]; exact h1) (by rw [e.1.2, e.1.1]; exact h2) (by rw [e.1.2]; exact h')⟩
  rw [← htext]
  refine swap _ (by simpa [piecesText, blen, Src.text] using h) ?_
  simp only [List.map_map]
  rfl

theorem rewritten_start {pos : Nat} {text out : Str} {fs : List Fix} (h : Rewritten pos text fs out) : ∀ g ∈ fs, pos ≤ g.start := by
  induction h with
  | done => intro g hg; cases hg
  | @fix pos keep old rest f fs out h1 h2 _ ih =>
    intro g hg
    rcases List.mem_cons.mp hg with rfl | hg
    · omega
    · have := ih g hg; omega

/-- Ranges that do not overlap are apart. -/
theorem C66_apart_of_disjoint {pos : Nat} {text out : Str} {fs : List Fix} (h : Rewritten pos text fs out) : ∀ lost, Apart lost fs := by
  induction h with
  | done => intro _; trivial
  | fix _ _ h3 ih => intro lost; exact ⟨fun g hg hlt => absurd (rewritten_start h3 g hg) (by omega), ih _⟩

/-- Fixes at different places are apart. -/
theorem C66_apart (text : Str) (src : Src) (p : Node) (eds : List (Edit × Str)) (hr : ReadsAs text src p) (hp : ∀ e ∈ eds, e.1.z.prog = p ∧ isExpr e.1.z.e = true)
    (ho : Ordered 0 src.toks.length (eds.map fun e => cutOf e.1)) : Apart 0 (eds.map fun e => textFix src e.1 e.2) := by
  obtain ⟨full, h⟩ := C66_ranges text src p eds hr hp ho
  exact C66_apart_of_disjoint h 0

/-- The range of a fix lies in the text. -/
theorem C66_in_text (text : Str) (src : Src) (p : Node) (e : Edit × Str) (hr : ReadsAs text src p) (hp : e.1.z.prog = p) (hx : isExpr e.1.z.e = true) : InText text (textFix src e.1 e.2) := by
  obtain ⟨full, h⟩ := C66_ranges text src p [e] hr (by intro f hf; cases List.mem_singleton.mp hf; exact ⟨hp, hx⟩) (by
    have hL : toks p = beforeToks e.1.z.fs ++ toks e.1.z.e ++ afterToks e.1.z.fs := by rw [← hp, Zip.prog, toks_plug]
    refine ⟨Nat.zero_le _, Nat.le_add_right .., ?_⟩
    show (cutOf e.1).stop ≤ src.toks.length
    rw [← hr.2.2.2, hL]
    simp only [cutOf, List.length_append]; omega)
  cases h with
  | @fix _ keep old rest f fs out h1 h2 _ =>
    have h1' : (textFix src e.1 e.2).start = blen keep := by have : (textFix src e.1 e.2).start = 0 + blen keep := h1; omega
    have h2 : (textFix src e.1 e.2).stop = (textFix src e.1 e.2).start + blen old := h2
    exact ⟨by omega, old, by rw [h2, h1']; exact slice_mid _ keep old rest rfl⟩

/-- What `apply_fixes` makes of a file, if the fixes are apart and each of them keeps the structure: R reads the new text, as the old program with the expressions of some of the fixes
(of all of them if none is reported as skipped) exchanged. The first fix is always carried out. -/
theorem C66_apply_good (text : Str) (src : Src) (p : Node) (eds : List (Edit × Str)) (fixes : List Fix) (isReal : Fix → Bool) (hr : ReadsAs text src p) (ha : Airy none src.pieces)
    (hg : ∀ e ∈ eds, GoodFix p e.1 ∧ ∃ cs, Spells e.2 e.1.content cs ∧ Airy none cs) (ho : Apart 0 (eds.map fun e => textFix src e.1 e.2))
    (hreal : (eds.map fun e => textFix src e.1 e.2) = fixes.filter isReal) (hplace : ∀ f ∈ fixes, isReal f = false → IsPlaceholder f)
    (hbytes : ∀ e ∈ eds, SameExtraBytes text (textFix src e.1 e.2)) {skipped : Bool} {out : Str} (h : applyFixes fixes text = some (skipped, out)) :
    ∃ done src' q, done.Sublist eds ∧ (skipped = false → done = eds) ∧ (eds ≠ [] → done ≠ []) ∧ ReadsAs out src' q ∧ Airy none src'.pieces ∧ Together (done.map (·.1)) p q ∧
      Rewritten 0 text (done.map fun e => textFix src e.1 e.2) out := by
  obtain ⟨applied, hs, hhd, hrw, hall⟩ := C19_apart text fixes isReal (by
    intro f hf
    cases hk : isReal f with
    | false => simpa using hplace f hf hk
    | true =>
      have : f ∈ eds.map fun e => textFix src e.1 e.2 := by rw [hreal]; exact List.mem_filter.mpr ⟨hf, hk⟩
      obtain ⟨e, hm, rfl⟩ := List.mem_map.mp this
      simpa using ⟨C66_in_text text src p e hr (hg e hm).1.1 (hg e hm).1.2.1, hbytes e hm⟩) (by rw [← hreal]; exact ho) h
  rw [← hreal] at hs hhd hall
  have hne : ∀ done : List (Edit × Str), applied = done.map (fun e => textFix src e.1 e.2) → eds ≠ [] → done ≠ [] := by
    rintro done rfl h1 rfl
    cases eds with
    | nil => exact h1 rfl
    | cons e eds => cases hhd
  by_cases hsk : skipped = false
  · have h0 := hall hsk
    rw [h0] at hrw
    obtain ⟨src', q, h1, h2, _, h4, _⟩ := C66_text _ _ _ eds _ hr ha hg hrw
    exact ⟨eds, src', q, List.Sublist.refl _, fun _ => rfl, id, h1, h2, h4, hrw⟩
  · obtain ⟨done, hd, hm⟩ := List.sublist_map_iff.mp hs
    have hn := hne done hm
    subst hm
    obtain ⟨src', q, h1, h2, _, h4, _⟩ := C66_text _ _ _ done _ hr ha (fun e hm => hg e (hd.subset hm)) hrw
    exact ⟨done, src', q, hd, fun h => absurd h hsk, hn, h1, h2, h4, hrw⟩

/-- The same for fixes of these rules, without comments inside the replaced code: R reads the new text, as the old program with the expressions of some of the fixes (of all of them if none is
reported as skipped) exchanged. The first fix is always carried out. -/
theorem C66_apply_fixes (text : Str) (src : Src) (p : Node) (eds : List (Edit × Str)) (fixes : List Fix) (isReal : Fix → Bool) (hr : ReadsAs text src p) (ha : Airy none src.pieces)
    (he : FixTexts keepingRules p eds) (ho : Apart 0 (eds.map fun e => textFix src e.1 e.2))
    (hreal : (eds.map fun e => textFix src e.1 e.2) = fixes.filter isReal) (hplace : ∀ f ∈ fixes, isReal f = false → IsPlaceholder f)
    (hbytes : ∀ e ∈ eds, SameExtraBytes text (textFix src e.1 e.2)) {skipped : Bool} {out : Str} (h : applyFixes fixes text = some (skipped, out)) :
    ∃ done src' q, done.Sublist eds ∧ (skipped = false → done = eds) ∧ (eds ≠ [] → done ≠ []) ∧ ReadsAs out src' q ∧ Airy none src'.pieces ∧ Together (done.map (·.1)) p q ∧
      Rewritten 0 text (done.map fun e => textFix src e.1 e.2) out := 
  C66_apply_good text src p eds fixes isReal hr ha (goodFix_of_rule (fun _ h => h) hr he) ho hreal hplace hbytes h

/-- `apply_fixes` does not panic then. -/
theorem C66_no_panic (text : Str) (src : Src) (p : Node) (eds : List (Edit × Str)) (hr : ReadsAs text src p) (he : FixTexts keepingRules p eds)
    (ho : Apart 0 (eds.map fun e => textFix src e.1 e.2)) (hbytes : ∀ e ∈ eds, SameExtraBytes text (textFix src e.1 e.2)) :
    ∃ r, applyFixes (eds.map fun e => textFix src e.1 e.2) text = some r := by
  have hg := goodFix_of_rule (fun _ h => h) hr he
  refine C19_apart_no_panic text _ ?_ ho
  intro f hf
  obtain ⟨e, hm, rfl⟩ := List.mem_map.mp hf
  exact ⟨C66_in_text text src p e hr (hg e hm).1.1 (hg e hm).1.2.1, hbytes e hm⟩

theorem lintFixLoop_reads {L : Lints} {pkg : PackageAnalysis} {cfg : Config} {path : Str} {io : Io} (hw : ∀ n, io.writeFails n = none)
    (hc : ∀ a ds, getChecks L pkg cfg path a = .ok ds → ReportsFixes keepingRules a ds) : ∀ (fuel n : Nat) (sk : Bool) (a : Str) (b : Option Str) (res : _),
    (∃ src p, ReadsAs a src p ∧ Airy none src.pieces) → lintFixLoop L pkg cfg path io fuel n sk (some a) = (b, res) → ∃ t, b = some t ∧ ∃ src p, ReadsAs t src p ∧ Airy none src.pieces := by
  intro fuel
  induction fuel with
  | zero => intro n sk a b res hr h; cases h; exact ⟨a, rfl, hr⟩
  | succ fuel ih =>
    intro n sk a b res hr h
    rw [lintFixLoop] at h
    cases hrd : io.read n (some a) with
    | none => rw [hrd] at h; cases h; exact ⟨a, rfl, hr⟩
    | some contents =>
      have hca : contents = a := by
        unfold Io.read at hrd
        split at hrd
        · cases hrd; rfl
        · cases hrd
      subst hca
      rw [hrd] at h
      simp only at h
      cases hch : getChecks L pkg cfg path contents with
      | error e => rw [hch] at h; cases h; exact ⟨contents, rfl, hr⟩
      | ok ds =>
        rw [hch] at h
        simp only at h
        split at h
        · cases h; exact ⟨contents, rfl, hr⟩
        · split at h
          · cases h; exact ⟨contents, rfl, hr⟩
          · rename_i sk' text hap
            rw [hw n] at h
            simp only at h
            obtain ⟨src, p, h1, h2⟩ := hr
            obtain ⟨eds, isReal, e1, e2, e3, e4, e5⟩ := hc _ _ hch src p h1
            obtain ⟨_, src', q, _, _, _, g1, g2, _⟩ := C66_apply_fixes contents src p eds _ isReal h1 h2 e1 e2 e3 e4 e5 hap
            exact ih _ _ _ _ _ ⟨src', q, g1, g2⟩ h

/-- Fixing a file, with as many passes as it takes: if R could read the file before, it can read it afterwards. -/
theorem C66_fix_file {L : Lints} {pkg : PackageAnalysis} {cfg : Config} {path : Str} {io : Io} {fuel : Nat} {a : Str} {b : Option Str} {res : Option (Except CheckErr (List Diagnostic))}
    (hw : ∀ n, io.writeFails n = none) (hc : ∀ a ds, getChecks L pkg cfg path a = .ok ds → ReportsFixes keepingRules a ds) (hr : ∃ src p, ReadsAs a src p ∧ Airy none src.pieces)
    (h : lintFix L pkg cfg path io fuel (some a) = (b, res)) : ∃ t, b = some t ∧ ∃ src p, ReadsAs t src p ∧ Airy none src.pieces := by
  unfold lintFix at h
  split at h
  · cases h; exact ⟨a, rfl, hr⟩
  · exact lintFixLoop_reads hw hc fuel 0 true a b res hr h

end Jarl
