import Verif.Spec.LspActions
import Verif.Spec.Comments
import Verif.Props.Lsp
import Verif.Props.Directive
import Verif.Props.SuppressionEdit
import Verif.Props.Rmd
import Verif.Props.Description
import Verif.Lemmas.Fix
/-!
# C44: diagnostics and fixes in the editor; C45: suppression actions
-/
namespace Jarl
open Spec

/-! ### Edits -/

theorem append_of_blen_eq {x y s t : Str} (h : x ++ s = y ++ t) (hb : blen x = blen y) : x = y ∧ s = t := by
  have h1 := splitAtByte_append x s
  have h2 := splitAtByte_append y t
  rw [h, hb, h2] at h1
  simp only [Option.some.injEq, Prod.mk.injEq] at h1
  exact ⟨h1.1.symm, h1.2.symm⟩

theorem posOf_inj {enc : Enc} {p r q s : Str} (h : p ++ r = q ++ s) (he : posOf enc p = posOf enc q) : p = q := by
  have hle : ∀ x : LPos, x.le x = true := fun x => by simp [LPos.le]
  have h1 := (C41_order enc p r q s h).1 (by rw [he]; exact hle _)
  have h2 := (C41_order enc q s p r h.symm).1 (by rw [he]; exact hle _)
  exact (append_of_blen_eq h (by omega)).1

/-- An edit has one result at most. -/
theorem C44_edit_deterministic {enc : Enc} {text out out' : Str} {e : TextEdit} (h : EditApplies enc text e out)
    (h' : EditApplies enc text e out') : out = out' := by
  obtain ⟨pre, old, post, ht, hr, ho⟩ := h
  obtain ⟨pre', old', post', ht', hr', ho'⟩ := h'
  rw [hr] at hr'
  simp only [LRange.mk.injEq] at hr'
  have e1 : pre = pre' := posOf_inj (enc := enc) (r := old ++ post) (s := old' ++ post')
    (by rw [← List.append_assoc, ← List.append_assoc, ← ht, ← ht']) hr'.1
  have e2 : pre ++ old = pre' ++ old' := posOf_inj (enc := enc) (r := post) (s := post') (by rw [← ht, ← ht']) hr'.2
  have e3 : post = post' := by
    have : pre ++ old ++ post = pre ++ old ++ post' := by rw [← ht, e2, ← ht']
    exact List.append_cancel_left this
  rw [ho, ho', e1, e3]

/-! ### C44 -/

theorem convertToLsp_ok {enc : Enc} {text : Str} {d : Diagnostic} (h : CutsAt text d.range.start d.range.stop) :
    ∃ x, convertToLsp d text enc = .ok x ∧ Shows enc text d x := by
  obtain ⟨pre, mid, post, ht, hs, he⟩ := h
  have h1 : byteOffsetToLspPosition d.range.start text enc = .ok (posOf enc pre) := by
    rw [hs, ht, List.append_assoc]; exact C41_diagnostic_position _ _ _
  have h2 : byteOffsetToLspPosition d.range.stop text enc = .ok (posOf enc (pre ++ mid)) := by
    rw [he, ht]; exact C41_diagnostic_position _ _ _
  unfold convertToLsp
  simp only [h1, h2]
  refine ⟨_, rfl, ⟨⟨pre, mid, post, ht, hs, he, rfl⟩, ?_, rfl, ⟨rfl, rfl⟩, ⟨rfl, rfl, rfl⟩, ?_⟩⟩
  · cases d.suggestion <;> simp
  · show d.hasSafeFix = true ↔ _
    unfold Diagnostic.hasSafeFix
    split
    · rename_i hc
      simp only [Bool.false_eq_true, false_iff]
      rintro ⟨a, b, -⟩
      simp [b] at hc
      exact a hc
    · rename_i hc
      simp only [Bool.or_eq_true, List.isEmpty_iff, not_or, Bool.not_eq_true] at hc
      split
      · rename_i r hr
        have hr' := Rule.fromName_eq_some.1 hr
        simp only [decide_eq_true_eq]
        constructor
        · intro hf; exact ⟨hc.2, hc.1, r, hr', hf⟩
        · rintro ⟨-, -, r', h3, h4⟩
          have : some r' = some r := by rw [← Rule.fromName_eq_some.2 h3, hr]
          cases this; exact h4
      · rename_i hr
        simp only [Bool.false_eq_true, false_iff]
        rintro ⟨-, -, r', h3, -⟩
        exact Rule.fromName_eq_none.1 hr r' h3

theorem convertAll_ok {enc : Enc} {text : Str} {ds : List Diagnostic}
    (h : ∀ d ∈ ds, CutsAt text d.range.start d.range.stop) :
    ∃ xs, convertAll text enc ds = .ok xs ∧ Each (Shows enc text) ds xs := by
  induction ds with
  | nil => exact ⟨[], rfl, .nil⟩
  | cons d ds ih =>
    obtain ⟨x, h1, h2⟩ := convertToLsp_ok (enc := enc) (h d (by simp))
    obtain ⟨xs, h3, h4⟩ := ih (fun d' hd => h d' (by simp [hd]))
    exact ⟨x :: xs, by simp [convertAll, h1, h3], .cons h2 h4⟩

/-- **C44** (diagnostics). The editor shows, in order, exactly the reports of the command line for the same text and
configuration (except that reports of `unused_function` are hidden when there are too many of them), each at the
right place in the negotiated encoding. -/
theorem C44_diagnostics (L : Lints) (ctx : LspContext) (content : Str) (enc : Enc) (ds : List Diagnostic)
    (hex : ctx.excluded = false) (hds : getChecks L ctx.pkg ctx.cfg ctx.path content = .ok ds)
    (hcut : ∀ d ∈ ds, CutsAt content d.range.start d.range.stop) :
    ∃ xs, lintDocument L ctx content enc = .ok xs ∧
      Each (Shows enc content)
        (ds.filter (fun d => ¬ (d.name = Rule.unusedFunction.name ∧ ctx.unusedNamed = false ∧
          ctx.threshold < ctx.unusedTotal))) xs := by
  have hhide : hideUnusedLsp ctx.unusedNamed ctx.unusedTotal ctx.threshold ds =
      ds.filter (fun d => ¬ (d.name = Rule.unusedFunction.name ∧ ctx.unusedNamed = false ∧
          ctx.threshold < ctx.unusedTotal)) := by
    unfold hideUnusedLsp
    split
    · rename_i h; simp only [h]; exact (List.filter_eq_self.2 (by simp)).symm
    · rename_i h
      split
      · rename_i h2
        have h2 : ctx.threshold < ctx.unusedTotal := h2
        simp [h, h2]
      · rename_i h2
        have h2 : ¬ ctx.threshold < ctx.unusedTotal := h2
        simp only [h2]; exact (List.filter_eq_self.2 (by simp)).symm
  have := convertAll_ok (enc := enc) (text := content)
    (ds := hideUnusedLsp ctx.unusedNamed ctx.unusedTotal ctx.threshold ds)
    (by rw [hhide]; intro d hd; exact hcut d (List.mem_filter.1 hd).1)
  obtain ⟨xs, h1, h2⟩ := this
  refine ⟨xs, ?_, hhide ▸ h2⟩
  simp [lintDocument, hex, hds, h1]

/-- **C44** (fix action). For every shown report whose fix range lies between characters: a fix is offered exactly when
the report has one, accepting it changes the text as the fix says, and it is marked as preferred exactly
when it is safe. -/
theorem C44_fix_action (enc : Enc) (content : Str) (d : Diagnostic) (x : LspDiag) (hx : Shows enc content d x)
    (hcut : CutsAt content d.fix.start d.fix.stop) :
    (d.fix.content = [] ∧ d.fix.start = d.fix.stop ∧ fixAction x.data content enc = .ok none) ∨
    (¬ (d.fix.content = [] ∧ d.fix.start = d.fix.stop) ∧
      ∃ a, fixAction x.data content enc = .ok (some a) ∧
      (∀ out, EditApplies enc content a.edit out ↔
        replaceRange content d.fix.start d.fix.stop d.fix.content = some out) ∧
      (∃ out, EditApplies enc content a.edit out) ∧
      a.preferred = x.data.isSafe) := by
  obtain ⟨f1, f2, f3⟩ := hx.fix
  by_cases hn : d.fix.content = [] ∧ d.fix.start = d.fix.stop
  · exact .inl ⟨hn.1, hn.2, by simp [fixAction, f1, f2, f3, hn.1, hn.2]⟩
  · refine .inr ⟨hn, ?_⟩
    obtain ⟨pre, mid, post, ht, hs, he⟩ := hcut
    have h1 : byteOffsetToLspPosition d.fix.start content enc = .ok (posOf enc pre) := by
      rw [hs, ht, List.append_assoc]; exact C41_diagnostic_position _ _ _
    have h2 : byteOffsetToLspPosition d.fix.stop content enc = .ok (posOf enc (pre ++ mid)) := by
      rw [he, ht]; exact C41_diagnostic_position _ _ _
    have hr : replaceRange content d.fix.start d.fix.stop d.fix.content = some (pre ++ d.fix.content ++ post) := by
      rw [hs, he, ht, blen_append]; exact replaceRange_append _ _ _ _
    have happ : EditApplies enc content ⟨⟨posOf enc pre, posOf enc (pre ++ mid)⟩, d.fix.content⟩
        (pre ++ d.fix.content ++ post) := ⟨pre, mid, post, ht, rfl, rfl⟩
    refine ⟨⟨⟨⟨posOf enc pre, posOf enc (pre ++ mid)⟩, d.fix.content⟩, x.data.isSafe⟩, ?_, ?_, ⟨_, happ⟩, rfl⟩
    · unfold fixAction
      rw [f1, f2, f3, if_neg hn]
      simp [h1, h2]
    · intro out
      rw [hr]
      constructor
      · intro h; rw [C44_edit_deterministic h happ]
      · intro h; cases h; exact happ

/-! ### C45 -/

theorem withLine_eq {source a b : Str} {p : InsertPoint} (h : source = a ++ b) (ho : p.offset = blen a) :
    withLine source p = some ⟨p, countNl a⟩ := by
  unfold withLine
  rw [splitAtByte_iff.mpr ⟨h, ho.symm⟩]

theorem posOf_wholeLines (enc : Enc) {a : Str} (ha : WholeLines a) : posOf enc a = ⟨countNl a, 0⟩ := by
  have := posOf_eq enc (l := []) ha (by simp)
  simpa [units] using this

theorem insert_edit {enc : Enc} {text a b t : Str} {off : Nat} (h : text = a ++ b) (ho : off = blen a) (out : Str) :
    EditApplies enc text ⟨⟨posOf enc a, posOf enc a⟩, t⟩ out ↔ insertStr text off t = some out := by
  have happ : EditApplies enc text ⟨⟨posOf enc a, posOf enc a⟩, t⟩ (a ++ t ++ b) :=
    ⟨a, [], b, by simp [h], by simp, rfl⟩
  unfold insertStr
  rw [splitAtByte_iff.mpr ⟨h, ho.symm⟩]
  simp only [Option.some.injEq]
  constructor
  · intro h; exact C44_edit_deterministic happ h
  · rintro rfl; exact happ

/-- **C45** (R files). The suppression action, when offered, inserts the comment `--add-jarl-ignore` would insert, at the
place it would insert it: always when the comment goes on a line before the code, and when the comment goes inside a
line if the client uses UTF-8 or the line is ASCII up to there (otherwise see F19). -/
theorem C45_r_file (anc : Ancestors) (enc : Enc) (path content : Str) (f : LspFixData) (p : InsertPoint) (a : LspAction)
    (hr : hasRmdExtension path = false)
    (hp : computeInsertPoint content (anc content f.diagStart f.diagEnd) f.diagStart = some p)
    (ha : ignoreRuleAction anc path content f = some (some a))
    (henc : p.needsLeadingNewline = false ∨ enc = .utf8 ∨
      ∀ pre post, content = pre ++ post → blen pre = p.offset → ∀ c ∈ lineTail pre, c.utf8Size = 1) :
    ∀ out, EditApplies enc content a.edit out ↔
      insertStr content p.offset (formatSuppressionComments [f.ruleName] (cs! "<reason>") p.indent p.needsLeadingNewline)
        = some out := by
  obtain ⟨pos, -, hpl⟩ := C31_insert_point hp
  have hcut := (insertPoint_usable hp).2.2
  obtain ⟨pre, post, hc, ho⟩ := hcut
  have hlp : insertPointR anc content f.diagStart f.diagEnd = some ⟨p, countNl pre⟩ := by
    simp only [insertPointR, hp]
    exact withLine_eq hc ho.symm
  simp only [ignoreRuleAction, ignorePoint, hr, hlp] at ha
  simp only [Bool.false_eq_true, if_false, Option.map_some] at ha
  unfold ignoreActionAt at ha
  split at ha
  · cases ha
  · rcases hpl with ⟨pre', line, rest, h1, h2, -, -, h5, h6, -⟩ | ⟨pre', line, rest, h1, h2, h3, h4, h5, h6, -⟩
    · -- line start
      have hpp : pre = pre' := (append_of_blen_eq (x := pre) (y := pre') (s := post) (t := line ++ rest)
        (by rw [← hc, h1]; simp) (by omega)).1
      subst hpp
      simp only [h6, Bool.false_eq_true, if_false, Option.some.injEq] at ha
      subst ha
      rw [h6]
      have hpos : (⟨countNl pre, 0⟩ : LPos) = posOf enc pre := (posOf_wholeLines enc h2).symm
      simp only [hpos]
      exact insert_edit hc ho.symm
    · simp only [h6, if_true] at ha
      have hs : serverOffsetToPosition content p.offset = some (posOf enc pre) := by
        rw [← ho, hc]
        rcases henc with h | h | h
        · rw [h] at h6; cases h6
        · rw [h]; exact C41_insertion_position_utf8 _ _
        · by_cases he : enc = .utf8
          · rw [he]; exact C41_insertion_position_utf8 _ _
          · exact (C41_insertion_position_ascii enc he pre post).2 (h pre post hc ho)
      simp only [hs, Option.some.injEq] at ha
      subst ha
      rw [h6]
      exact insert_edit hc ho.symm

theorem splitInclusive_wholeLines {a : Str} (b : Str) (ha : WholeLines a) :
    splitInclusive '\n' (a ++ b) = splitInclusive '\n' a ++ splitInclusive '\n' b ∧
    (splitInclusive '\n' a).length = countNl a := by
  have key : ∀ n (a : Str), a.length ≤ n → WholeLines a →
      splitInclusive '\n' (a ++ b) = splitInclusive '\n' a ++ splitInclusive '\n' b ∧
      (splitInclusive '\n' a).length = countNl a := by
    intro n
    induction n with
    | zero =>
      intro a hn _
      have : a = [] := List.length_eq_zero_iff.1 (by omega)
      subst this; exact ⟨rfl, rfl⟩
    | succ n ih =>
      intro a hn ha
      obtain ⟨r, t, e, hr, ht⟩ := lineHead_decomp a
      rcases ht with rfl | ⟨t', rfl⟩
      · -- no newline
        simp only [List.append_nil] at e
        subst e
        rcases ha with rfl | ⟨x, rfl⟩
        · exact ⟨rfl, rfl⟩
        · simp at hr
      · subst e
        have hw : WholeLines t' := by
          rcases ha with h | ⟨x, h⟩
          · simp at h
          · rcases List.eq_nil_or_concat t' with rfl | ⟨y, c, rfl⟩
            · exact .inl rfl
            · right
              rw [List.concat_eq_append] at h ⊢
              have h' : (r ++ '\n' :: y) ++ [c] = x ++ ['\n'] := by rw [← h]; simp
              have := List.append_inj_right' h' rfl
              exact ⟨y, by rw [this]⟩
        obtain ⟨h1, h2⟩ := ih t' (by simp at hn; omega) hw
        rw [List.append_assoc, List.cons_append, splitInclusive_append hr, splitInclusive_append hr, h1]
        refine ⟨rfl, ?_⟩
        simp only [List.length_cons, h2, countNl_append, countNl_noNl hr]
        have : countNl ('\n' :: t') = 1 + countNl t' := by
          show countNl (['\n'] ++ t') = _
          rw [countNl_append]; rfl
        omega
  exact key _ a (Nat.le_refl _) ha

theorem stripEol_blank (l : Str) : ∃ w, Blank w ∧ l = stripEol (l ++ ['\n']) ++ w := by
  unfold stripEol
  rw [List.reverse_append]
  simp only [List.reverse_cons, List.reverse_nil, List.nil_append, List.singleton_append]
  split
  · rename_i r hr
    simp only [List.cons.injEq, true_and] at hr
    refine ⟨cs! "\r", by unfold Blank; decide, ?_⟩
    rw [← List.reverse_reverse l, hr]; simp
  · rename_i r hne hr
    simp only [List.cons.injEq, true_and] at hr
    refine ⟨[], by simp [Blank], ?_⟩
    rw [← hr]; simp
  · rename_i h1 h2
    exact absurd rfl (h2 l.reverse)

theorem splitOn_none {c : Char} {s : Str} (h : c ∉ s) : splitOn c s = [s] := by
  induction s with
  | nil => rfl
  | cons d ds ih =>
    simp only [List.mem_cons, not_or] at h
    simp only [splitOn, if_neg (fun e => h.1 (Eq.symm e)), ih h.2]

theorem trim_blank_ends {w1 w2 s : Str} (h1 : Blank w1) (h2 : Blank w2) : trim (w1 ++ s ++ w2) = trim s := by
  unfold trim
  rw [List.append_assoc, trimStart_ws_append h1]
  cases h : trimStart s with
  | nil =>
    have hb := trimStart_eq_nil.1 h
    have e1 : trimStart (s ++ w2) = [] := trimStart_eq_nil.2 (fun c hc => by
      rcases List.mem_append.1 hc with h | h
      · exact hb c h
      · exact h2 c h)
    rw [e1]
  | cons c r =>
    obtain ⟨w, e, hw⟩ := trimStart_spec s
    have : trimStart (s ++ w2) = trimStart s ++ w2 := by
      conv => lhs; rw [e, List.append_assoc, trimStart_ws_append hw, h, List.cons_append,
        trimStart_of_head (head_trimStart h)]
      rw [h]; rfl
    rw [this, trimEnd_append_ws h2, h]

theorem parseExisting_named {w w1 w2 e : Str} (r : Rule) (hw : Blank w) (h1 : Blank w1) (h2 : Blank w2) :
    parseExistingSuppression (w ++ (cs! "# jarl-ignore " ++ w1 ++ r.name ++ w2 ++ ':' :: e)) = some (some [r.name]) := by
  have hws : isWs '#' = false := by decide
  have hcol : isWs ':' = false := by decide
  obtain ⟨hch, hne⟩ := Rule.name_chars r
  have hname : ∀ c ∈ r.name, isWs c = false ∧ c ≠ ':' ∧ c ≠ ',' := by
    intro c hc
    have := hch c hc
    refine ⟨?_, ?_, ?_⟩
    · exact ruleChar_not_ws this
    · rintro rfl; revert this; decide
    · rintro rfl; revert this; decide
  have ht : ∃ e', trim (w ++ (cs! "# jarl-ignore " ++ w1 ++ r.name ++ w2 ++ ':' :: e)) =
      cs! "# jarl-ignore " ++ w1 ++ r.name ++ w2 ++ ':' :: e' := by
    unfold trim
    have e0 : cs! "# jarl-ignore " ++ w1 ++ r.name ++ w2 ++ ':' :: e =
      '#' :: (cs! " jarl-ignore " ++ w1 ++ r.name ++ w2 ++ ':' :: e) := rfl
    rw [e0, trimStart_blank_head hw hws, ← e0]
    have hnb : ¬ Blank (':' :: e) := fun h => by have := h ':' (by simp); rw [hcol] at this; cases this
    rw [trimEnd_append_of_not_blank hnb]
    have e1 : trimEnd ([':'] ++ e) = [':'] ++ trimEnd e ∨ trimEnd ([':'] ++ e) = [':'] := by
      by_cases hb : Blank e
      · right; rw [trimEnd_append_ws hb]; rfl
      · left; exact trimEnd_append_of_not_blank hb
    rcases e1 with e1 | e1
    · exact ⟨trimEnd e, by rw [show ':' :: e = [':'] ++ e from rfl, e1]; rfl⟩
    · exact ⟨[], by rw [show ':' :: e = [':'] ++ e from rfl, e1]⟩
  obtain ⟨e', ht⟩ := ht
  unfold parseExistingSuppression
  rw [ht]
  have e2 : cs! "# jarl-ignore " ++ w1 ++ r.name ++ w2 ++ ':' :: e' =
    cs! "# jarl-ignore" ++ (' ' :: (w1 ++ r.name ++ w2 ++ ':' :: e')) := by simp
  rw [e2, stripPrefix_append]
  simp only
  have e3 : trimStart (' ' :: (w1 ++ r.name ++ w2 ++ ':' :: e')) = r.name ++ w2 ++ ':' :: e' := by
    have hb : Blank (' ' :: w1) := by
      intro c hc; rcases List.mem_cons.1 hc with rfl | h
      · decide
      · exact h1 c h
    have := trimStart_ws_append (s := r.name ++ w2 ++ ':' :: e') hb
    rw [show ' ' :: (w1 ++ r.name ++ w2 ++ ':' :: e') = (' ' :: w1) ++ (r.name ++ w2 ++ ':' :: e') by simp, this]
    cases hn : r.name with
    | nil => exact absurd hn hne
    | cons c cs =>
      have := (hname c (by rw [hn]; simp)).1
      exact trimStart_of_head this
  rw [e3, if_neg (by simp)]
  have e4 : splitFirst ':' (r.name ++ w2 ++ ':' :: e') = some (r.name ++ w2, e') := by
    rw [splitFirst_iff]
    refine ⟨by simp, ?_⟩
    intro hc
    rcases List.mem_append.1 hc with h | h
    · exact (hname _ h).2.1 rfl
    · have := h2 _ h; rw [hcol] at this; cases this
  rw [e4]
  have e5 : splitOn ',' (r.name ++ w2) = [r.name ++ w2] := by
    apply splitOn_none
    intro hc
    rcases List.mem_append.1 hc with h | h
    · exact (hname _ h).2.2 rfl
    · have := h2 _ h; revert this; decide
  have e6 : trim (r.name ++ w2) = r.name := by
    have := trim_wrap (w1 := []) (n := r.name) (by simp [Blank]) h2 (fun c hc => (hname c hc).1)
    simpa using this
  simp [e5, e6, hne]

/-- **C45** (not twice). The action is not offered when the line before the place of insertion already is a suppression
comment for the rule. -/
theorem C45_not_twice (anc : Ancestors) (path content : Str) (f : LspFixData) (r : Rule) (p : InsertPoint)
    (before w w1 w2 e rest : Str)
    (hrule : f.ruleName = r.name) (hr : hasRmdExtension path = false)
    (hp : computeInsertPoint content (anc content f.diagStart f.diagEnd) f.diagStart = some p)
    (hl : p.needsLeadingNewline = false)
    (hw : Blank w) (h1 : Blank w1) (h2 : Blank w2) (hb : WholeLines before)
    (hnl : '\n' ∉ w ++ (cs! "# jarl-ignore " ++ w1 ++ r.name ++ w2 ++ ':' :: e))
    (hc : content = before ++ (w ++ (cs! "# jarl-ignore " ++ w1 ++ r.name ++ w2 ++ ':' :: e) ++ '\n' :: rest))
    (ho : p.offset = blen (before ++ (w ++ (cs! "# jarl-ignore " ++ w1 ++ r.name ++ w2 ++ ':' :: e) ++ ['\n']))) :
    ignoreRuleAction anc path content f = some none := by
  generalize hline : w ++ (cs! "# jarl-ignore " ++ w1 ++ r.name ++ w2 ++ ':' :: e) = line at *
  have hlp : insertPointR anc content f.diagStart f.diagEnd = some ⟨p, countNl before + 1⟩ := by
    simp only [insertPointR, hp]
    have := withLine_eq (source := content) (a := before ++ (line ++ ['\n'])) (b := rest) (p := p) (by rw [hc]; simp) ho
    rw [this, countNl_append, countNl_append, countNl_noNl hnl]
    rfl
  have hget : (rustLines content)[countNl before]? = some (stripEol (line ++ ['\n'])) := by
    unfold rustLines
    rw [hc, (splitInclusive_wholeLines _ hb).1, splitInclusive_append hnl, List.getElem?_map,
      ← (splitInclusive_wholeLines [] hb).2]
    simp
  have hal : alreadySuppressed content r.name ⟨p, countNl before + 1⟩ = true := by
    unfold alreadySuppressed
    rw [if_pos (by simp [hl])]
    simp only [Nat.add_sub_cancel, hget]
    obtain ⟨w', hw', he⟩ := stripEol_blank line
    have hpe : parseExistingSuppression (stripEol (line ++ ['\n'])) = parseExistingSuppression line := by
      unfold parseExistingSuppression
      have : trim line = trim (stripEol (line ++ ['\n'])) := by
        conv => lhs; rw [he]
        have := trim_blank_ends (w1 := []) (s := stripEol (line ++ ['\n'])) (by simp [Blank]) hw'
        simpa using this
      rw [this]
    rw [hpe, ← hline, parseExisting_named r hw h1 h2]
    simp
  simp only [ignoreRuleAction, ignorePoint, hr, hlp, Bool.false_eq_true, if_false, Option.map_some]
  unfold ignoreActionAt
  rw [hrule, hal]
  simp

theorem splitOn_mem_sub {c : Char} {s p : Str} (h : p ∈ splitOn c s) : ∃ a b, s = a ++ p ++ b := by
  induction s generalizing p with
  | nil => simp [splitOn] at h; exact ⟨[], [], by simp [h]⟩
  | cons d ds ih =>
    unfold splitOn at h
    split at h
    · rcases List.mem_cons.1 h with rfl | h
      · exact ⟨[], d :: ds, by simp⟩
      · obtain ⟨a, b, e⟩ := ih h
        exact ⟨d :: a, b, by simp [e]⟩
    · split at h
      · simp at h; exact ⟨[], ds, by simp [h]⟩
      · rename_i x xs hx
        have hfirst : ∃ b, ds = x ++ b := by
          have : ∀ (t : Str) (x : Str) (xs : List Str), splitOn c t = x :: xs → ∃ b, t = x ++ b := by
            intro t
            induction t with
            | nil => intro x xs h; simp [splitOn] at h; exact ⟨[], by simp [h.1]⟩
            | cons e es ih2 =>
              intro x xs h
              unfold splitOn at h
              split at h
              · simp at h; exact ⟨e :: es, by simp [← h.1]⟩
              · split at h
                · simp at h; exact ⟨es, by simp [← h.1]⟩
                · rename_i y ys hy
                  simp at h
                  obtain ⟨b, hb⟩ := ih2 _ _ hy
                  exact ⟨b, by rw [← h.1, hb]; rfl⟩
          exact this ds x xs hx
        rcases List.mem_cons.1 h with rfl | h
        · obtain ⟨b, hb⟩ := hfirst
          exact ⟨[], b, by rw [hb]; simp⟩
        · obtain ⟨a, b, e⟩ := ih (p := p) (by rw [hx]; simp [h])
          exact ⟨d :: a, b, by simp [e]⟩

theorem parseExisting_mem {line rule : Str} {rules : List Str} (h : parseExistingSuppression line = some (some rules))
    (hm : rule ∈ rules) : ∃ w t1 t2, Blank w ∧ line = w ++ cs! "# jarl-ignore" ++ t1 ++ rule ++ t2 := by
  unfold parseExistingSuppression at h
  split at h
  · cases h
  · rename_i after hs
    have e1 := stripPrefix_iff.1 hs
    obtain ⟨w, w', hw, -, e0⟩ := trim_decomp line
    obtain ⟨v, e2, -⟩ := trimStart_spec after
    simp only at h
    split at h
    · cases h
    · split at h
      · cases h
      · rename_i rs x hf
        obtain ⟨e3, -⟩ := splitFirst_iff.1 hf
        split at h
        · cases h
        · simp only [Option.some.injEq] at h
          subst h
          obtain ⟨hm, -⟩ := List.mem_filter.1 hm
          obtain ⟨q, hq, rfl⟩ := List.mem_map.1 hm
          obtain ⟨a, b, e4⟩ := splitOn_mem_sub hq
          obtain ⟨u1, u2, -, -, e5⟩ := trim_decomp q
          refine ⟨w, v ++ a ++ u1, u2 ++ b ++ ':' :: x ++ w', hw, ?_⟩
          rw [e0, e1, e2, e3, e4]
          conv => lhs; rw [e5]
          simp

theorem rustLines_get {content : Str} {n : Nat} {l : Str} (h : (rustLines content)[n]? = some l)
    (hn : n < countNl content) : ∃ before w rest, content = before ++ (l ++ w) ++ '\n' :: rest ∧ WholeLines before ∧
      '\n' ∉ l ++ w ∧ Blank w ∧ countNl before = n := by
  obtain ⟨a, m, b, e, hc, ha, hm, hb⟩ := line_decomp content n (by omega)
  rcases hb with rfl | ⟨b', rfl⟩
  · exfalso
    rw [e] at hn
    simp only [List.append_nil, countNl_append, countNl_noNl hm] at hn
    omega
  · have hget : (rustLines content)[countNl a]? = some (stripEol (m ++ ['\n'])) := by
      unfold rustLines
      rw [e, List.append_assoc, (splitInclusive_wholeLines _ ha).1, splitInclusive_append hm, List.getElem?_map,
        ← (splitInclusive_wholeLines [] ha).2]
      simp
    rw [hc, h] at hget
    cases hget
    obtain ⟨w, hw, hmw⟩ := stripEol_blank m
    refine ⟨a, w, b', ?_, ha, ?_, hw, hc⟩
    · rw [← hmw]; exact e
    · rw [← hmw]; exact hm

/-- **C45** (offered). In an R file the action is always offered, unless the line before the place of insertion is a
`# jarl-ignore` comment that names the rule. -/
theorem C45_offered (anc : Ancestors) (path content : Str) (f : LspFixData) (p : InsertPoint)
    (hr : hasRmdExtension path = false)
    (hp : computeInsertPoint content (anc content f.diagStart f.diagEnd) f.diagStart = some p) :
    (∃ a, ignoreRuleAction anc path content f = some (some a)) ∨
    (ignoreRuleAction anc path content f = some none ∧ p.needsLeadingNewline = false ∧
      ∃ before line rest w t1 t2, content = before ++ line ++ '\n' :: rest ∧ WholeLines before ∧ '\n' ∉ line ∧
        p.offset = blen (before ++ line ++ ['\n']) ∧ Blank w ∧
        line = w ++ cs! "# jarl-ignore" ++ t1 ++ f.ruleName ++ t2) := by
  obtain ⟨pre, post, hc, ho⟩ := (insertPoint_usable hp).2.2
  have hlp : insertPointR anc content f.diagStart f.diagEnd = some ⟨p, countNl pre⟩ := by
    simp only [insertPointR, hp]
    exact withLine_eq hc ho.symm
  have hs : serverOffsetToPosition content p.offset = some (posOf .utf8 pre) := by
    rw [← ho, hc]; exact C41_insertion_position_utf8 _ _
  simp only [ignoreRuleAction, ignorePoint, hr, hlp, Bool.false_eq_true, if_false, Option.map_some]
  unfold ignoreActionAt
  cases hal : alreadySuppressed content f.ruleName ⟨p, countNl pre⟩ with
  | false =>
    left
    simp only [Bool.false_eq_true, if_false, hs]
    split <;> exact ⟨_, rfl⟩
  | true =>
    right
    refine ⟨by simp, ?_⟩
    unfold alreadySuppressed at hal
    simp only at hal
    split at hal
    · rename_i hcond
      simp only [Bool.and_eq_true, decide_eq_true_eq, Bool.not_eq_true'] at hcond
      split at hal
      · cases hal
      · rename_i prev hprev
        split at hal
        · rename_i rules hpe
          have hmem := List.contains_iff_mem.1 hal
          obtain ⟨w, t1, t2, hw, hline⟩ := parseExisting_mem hpe hmem
          obtain ⟨before, w2, rest, e, hb, hnl, -, hcnt⟩ := rustLines_get hprev (by rw [hc, countNl_append]; omega)
          refine ⟨hcond.2, before, prev ++ w2, rest, w, t1, t2 ++ w2, e, hb, hnl, ?_, hw, by rw [hline]; simp⟩
          -- the insertion place is at a line start
          obtain ⟨pos, -, hpl⟩ := C31_insert_point hp
          rcases hpl with ⟨pre', line, rest', h1, h2, -, -, h5, -⟩ | ⟨_, _, _, _, _, _, _, _, h6, _⟩
          · have hpp : pre = pre' := (append_of_blen_eq (x := pre) (y := pre') (s := post) (t := line ++ rest')
              (by rw [← hc, h1]; simp) (by omega)).1
            subst hpp
            have hq : WholeLines (before ++ (prev ++ w2) ++ ['\n']) := .inr ⟨_, rfl⟩
            have h3 : posOf .utf8 (before ++ (prev ++ w2) ++ ['\n']) = posOf .utf8 pre := by
              rw [posOf_wholeLines _ hq, posOf_wholeLines _ h2]
              simp only [countNl_append, hcnt]
              have e1 := countNl_noNl hnl
              rw [countNl_append] at e1
              have e2 : countNl ['\n'] = 1 := rfl
              congr 1
              omega
            have := posOf_inj (enc := .utf8) (r := rest) (s := post) (by rw [← hc, e]; simp) h3
            rw [this, h5]
          · rw [hcond.2] at h6; cases h6
        · cases hal
    · cases hal

/-- A comment without explanation does not suppress anything (C11), yet it hides the action: the place where the user most
needs it. -/
theorem C45_false_unexplained_hides_action :
    let content := cs! "# jarl-ignore assignment:\nx = 1\n"
    ignoreRuleAction (fun _ _ _ => none) (cs! "a.R") content ⟨[], 0, 0, false, Rule.assignment.name, 26, 31⟩ = some none ∧
    parseCommentDirective (cs! "# jarl-ignore assignment:") = some .missingExplanation := by
  constructor <;> decide +kernel

/-- Every line but the last ends with a newline. -/
theorem splitInclusive_ends (s : Str) (p q : List Str) (h : splitInclusive '\n' s = p ++ q) (hq : q ≠ []) :
    ∀ l ∈ p, ∃ x, l = x ++ ['\n'] := by
  induction s generalizing p with
  | nil =>
    simp only [splitInclusive] at h
    cases p with
    | nil => simp
    | cons a p => cases h
  | cons d ds ih =>
    unfold splitInclusive at h
    split at h
    · rename_i hd
      cases p with
      | nil => simp
      | cons a p =>
        simp only [List.cons_append, List.cons.injEq] at h
        intro l hl
        rcases List.mem_cons.1 hl with rfl | hl
        · exact ⟨[], by rw [← h.1, hd]; rfl⟩
        · exact ih p h.2 l hl
    · split at h
      · cases p with
        | nil => simp
        | cons a p =>
          simp only [List.cons_append, List.cons.injEq] at h
          have := h.2.symm
          simp only [List.append_eq_nil_iff] at this
          exact absurd this.2 hq
      · rename_i x xs hx
        cases p with
        | nil => simp
        | cons a p =>
          simp only [List.cons_append, List.cons.injEq] at h
          have := ih (x :: p) (by rw [hx, h.2]; rfl)
          intro l hl
          rcases List.mem_cons.1 hl with rfl | hl
          · obtain ⟨y, hy⟩ := this x (by simp)
            exact ⟨d :: y, by rw [← h.1, hy]; rfl⟩
          · exact this l (by simp [hl])

/-- The whole lines in front of a chunk: there is at least one (the fence). -/
theorem chunk_before (content : Str) (c : RChunk) (hc : c ∈ extractRChunks content) :
    ∃ before after, content = before ++ c.code ++ after ∧ blen before = c.startByte ∧ WholeLines before ∧
      0 < countNl before := by
  obtain ⟨pre, op, f, body, cl, post, hl, hop, _, _, hcode, hstart⟩ := C14_chunk_lines content c hc
  have hcont : content = (pre ++ [op]).flatten ++ c.code ++ (cl :: post).flatten := by
    rw [hcode, ← splitInclusive_flatten '\n' content, hl]; simp
  have hnl : ∃ q, op = q ++ ['\n'] := by
    have := splitInclusive_ends content (pre ++ [op]) (body ++ cl :: post) (by rw [hl]; simp) (by simp)
    obtain ⟨q, hq⟩ := this op (by simp)
    exact ⟨q, hq⟩
  obtain ⟨q, hq⟩ := hnl
  refine ⟨_, _, hcont, hstart.symm, .inr ⟨pre.flatten ++ q, by simp [hq]⟩, ?_⟩
  simp only [List.flatten_append, List.flatten_cons, List.flatten_nil, List.append_nil, countNl_append, hq]
  have : countNl ['\n'] = 1 := by decide
  omega

theorem lspChunkOf_mem {content : Str} {n : Nat} {c : RChunk} (h : lspChunkOf content n = some c) :
    c ∈ extractRChunks content ∧ c.startByte ≤ n ∧ n ≤ c.startByte + blen c.code := by
  unfold lspChunkOf at h
  refine ⟨List.mem_of_find?_eq_some h, ?_⟩
  have := List.find?_some h
  simpa using this

/-- **C45** is false in R Markdown and Quarto documents (finding F22): whenever the comment should go on a line before
the code, which is the usual case, the action inserts it on an earlier line than the intended one. `before` is the text in
front of the chunk, `pre` the text in front of the intended place. -/
theorem C45_false_document (anc : Ancestors) (enc : Enc) (path content : Str) (f : LspFixData) (c : RChunk)
    (p : InsertPoint) (a : LspAction) (pre post : Str)
    (hr : hasRmdExtension path = true) (hc : lspChunkOf content f.diagStart = some c)
    (hp : computeInsertPoint c.code (anc c.code (f.diagStart - c.startByte) (f.diagEnd - c.startByte))
      (f.diagStart - c.startByte) = some p)
    (hl : p.needsLeadingNewline = false)
    (ha : ignoreRuleAction anc path content f = some (some a))
    (hpre : content = pre ++ post) (hoff : blen pre = c.startByte + p.offset) :
    a.edit.range.start.line < (posOf enc pre).line ∧
      ∃ before, blen before = c.startByte ∧ before <+: content ∧
        (posOf enc pre).line = a.edit.range.start.line + countNl before := by
  obtain ⟨hmem, -, -⟩ := lspChunkOf_mem hc
  obtain ⟨before, after, h1, h2, h3, h4⟩ := chunk_before content c hmem
  obtain ⟨x, y, hxy, hx⟩ := (insertPoint_usable hp).2.2
  have hpre' : pre = before ++ x := by
    refine (append_of_blen_eq (s := post) (t := y ++ after) ?_ ?_).1
    · rw [← hpre, h1, hxy]; simp
    · simp; omega
  have hlp : insertPointR anc c.code (f.diagStart - c.startByte) (f.diagEnd - c.startByte) = some ⟨p, countNl x⟩ := by
    simp only [insertPointR, hp]
    exact withLine_eq hxy hx.symm
  simp only [ignoreRuleAction, ignorePoint, hr, if_true, insertPointRmd, hc, hlp] at ha
  unfold ignoreActionAt at ha
  split at ha
  · cases ha
  · simp only [hl, Bool.false_eq_true, if_false, Option.some.injEq] at ha
    subst ha
    have : (posOf enc pre).line = countNl x + countNl before := by
      simp only [posOf, hpre', countNl_append]; omega
    refine ⟨by rw [this]; show countNl x < _; omega, before, h2, ⟨c.code ++ after, by rw [h1]; simp⟩, this⟩

/-- A concrete case: in a document whose first chunk is `x = 1`, accepting the suppression inserts the comment before the
opening fence, where it is Markdown text and suppresses nothing. -/
theorem C45_false_document_witness :
    let content := cs! "```{r}\nx = 1\n```\n"
    ∃ a, ignoreRuleAction (fun _ _ _ => none) (cs! "a.Rmd") content
        ⟨[], 0, 0, false, Rule.assignment.name, 7, 12⟩ = some (some a) ∧
      EditApplies .utf16 content a.edit (cs! "# jarl-ignore assignment: <reason>\n```{r}\nx = 1\n```\n") := by
  refine ⟨⟨⟨⟨⟨0, 0⟩, ⟨0, 0⟩⟩, cs! "# jarl-ignore assignment: <reason>\n"⟩, false⟩, by decide +kernel, ?_⟩
  exact ⟨[], [], cs! "```{r}\nx = 1\n```\n", by decide, by decide, by decide⟩

/-- **C45** (documents, inside a line). A comment that goes inside a line is inserted at the intended place if the client
uses UTF-8. -/
theorem C45_document_inline (anc : Ancestors) (path content : Str) (f : LspFixData) (c : RChunk)
    (p : InsertPoint) (a : LspAction)
    (hr : hasRmdExtension path = true) (hc : lspChunkOf content f.diagStart = some c)
    (hp : computeInsertPoint c.code (anc c.code (f.diagStart - c.startByte) (f.diagEnd - c.startByte))
      (f.diagStart - c.startByte) = some p)
    (hl : p.needsLeadingNewline = true)
    (ha : ignoreRuleAction anc path content f = some (some a)) (out : Str) :
    EditApplies .utf8 content a.edit out ↔
      insertStr content (c.startByte + p.offset)
        (formatSuppressionComments [f.ruleName] (cs! "<reason>") p.indent true) = some out := by
  obtain ⟨hmem, -, -⟩ := lspChunkOf_mem hc
  obtain ⟨before, after, h1, h2, h3, h4⟩ := chunk_before content c hmem
  obtain ⟨x, y, hxy, hx⟩ := (insertPoint_usable hp).2.2
  have hcont : content = (before ++ x) ++ (y ++ after) := by rw [h1, hxy]; simp
  have hlp : insertPointR anc c.code (f.diagStart - c.startByte) (f.diagEnd - c.startByte) = some ⟨p, countNl x⟩ := by
    simp only [insertPointR, hp]
    exact withLine_eq hxy hx.symm
  simp only [ignoreRuleAction, ignorePoint, hr, if_true, insertPointRmd, hc, hlp] at ha
  unfold ignoreActionAt at ha
  split at ha
  · cases ha
  · have hs : serverOffsetToPosition content (p.offset + c.startByte) = some (posOf .utf8 (before ++ x)) := by
      have : p.offset + c.startByte = blen (before ++ x) := by simp; omega
      rw [this, hcont]; exact C41_insertion_position_utf8 _ _
    simp only [hl, hs, Option.some.injEq] at ha
    subst ha
    exact insert_edit hcont (by simp; omega) out

/-- **C45** (chunk action). It is offered exactly in documents, for reports inside a chunk whose code does not already
contain one of the two forms of the suppression; accepting it, with any encoding, inserts at the start of the code of
the chunk two lines, the header and a valid item of a Quarto array suppressing that rule; nothing else changes. -/
theorem C45_chunk_action (path content : Str) (f : LspFixData) :
    (∃ a, ignoreChunkAction path content f = some (some a)) ↔
      hasRmdExtension path = true ∧ ∃ c, lspChunkOf content f.diagStart = some c ∧
        containsSub (cs! "jarl-ignore-chunk " ++ f.ruleName) c.code = false ∧
        containsSub (cs! "- " ++ f.ruleName ++ cs! ":") c.code = false := by
  unfold ignoreChunkAction
  cases hr : hasRmdExtension path with
  | false => simp
  | true =>
    cases hc : lspChunkOf content f.diagStart with
    | none => simp
    | some c =>
      obtain ⟨before, after, h1, h2, h3, -⟩ := chunk_before content c (lspChunkOf_mem hc).1
      have hs : serverOffsetToPosition content c.startByte = some (posOf .utf8 before) := by
        rw [← h2, h1, List.append_assoc]; exact C41_insertion_position_utf8 _ _
      simp only [hs, Bool.not_true, Bool.false_eq_true, if_false, Option.some.injEq, true_and, exists_eq_left']
      cases containsSub (cs! "jarl-ignore-chunk " ++ f.ruleName) c.code <;>
        cases containsSub (cs! "- " ++ f.ruleName ++ cs! ":") c.code <;> simp

theorem C45_chunk_action_edit (path content : Str) (enc : Enc) (f : LspFixData) (r : Rule) (a : LspAction)
    (hrule : f.ruleName = r.name)
    (ha : ignoreChunkAction path content f = some (some a)) :
    ∃ before c after header item, content = before ++ c.code ++ after ∧ blen before = c.startByte ∧
      c ∈ extractRChunks content ∧ c.startByte ≤ f.diagStart ∧ f.diagStart ≤ c.startByte + blen c.code ∧
      (∀ out, EditApplies enc content a.edit out ↔
        out = before ++ (header ++ cs! "\n" ++ item ++ cs! "\n" ++ c.code) ++ after) ∧
      HeaderText header ∧ ValidItem item r ∧ '\n' ∉ header ++ item := by
  unfold ignoreChunkAction at ha
  cases hr : hasRmdExtension path with
  | false => simp [hr] at ha
  | true =>
    cases hc : lspChunkOf content f.diagStart with
    | none => simp [hr, hc] at ha
    | some c =>
      obtain ⟨hm1, hm2, hm3⟩ := lspChunkOf_mem hc
      obtain ⟨before, after, h1, h2, h3, -⟩ := chunk_before content c hm1
      have hs : serverOffsetToPosition content c.startByte = some (posOf enc before) := by
        have := C41_insertion_position_utf8 before (c.code ++ after)
        rw [posOf_wholeLines _ h3] at this
        rw [← h2, h1, List.append_assoc, posOf_wholeLines _ h3]
        exact this
      simp only [hr, hc, hs, Bool.not_true, Bool.false_eq_true, if_false] at ha
      split at ha
      · cases ha
      · cases ha
        refine ⟨before, c, after, cs! "#| jarl-ignore-chunk:", cs! "#|   - " ++ r.name ++ cs! ": <reason>", h1, h2, hm1,
          hm2, hm3, ?_, ?_, ?_, ?_⟩
        · intro out
          have hcont : content = before ++ (c.code ++ after) := by rw [h1]; simp
          rw [insert_edit hcont h2.symm]
          unfold insertStr
          rw [splitAtByte_iff.mpr ⟨hcont, h2⟩]
          simp only [Option.some.injEq, chunkComment, hrule]
          rw [eq_comm]
          simp
        · exact ⟨[], [], by simp [Blank], by simp [Blank], by simp⟩
        · refine ⟨[], cs! "   ", cs! " ", r.name ++ cs! ": <reason>", by simp [Blank], ?_, ?_, by decide, ?_, ?_⟩
          · unfold Blank; decide
          · unfold Blank; decide
          · exact ⟨[], [], cs! " <reason>", by simp [Blank], by simp [Blank], by unfold Blank; decide, by simp⟩
          · simp
        · have : '\n' ∉ r.name := by cases r <;> decide
          simp [this]

/-! ### Concrete cases -/

/-- `any(is.na(é))` on the second line, replaced by `anyNA(é)`: the hypotheses of C44 hold. -/
example : CutsAt (cs! "x\nany(is.na(é))\n") 2 16 ∧
    Shows .utf16 (cs! "x\nany(is.na(é))\n")
      ⟨Rule.anyIsNa.name, cs! "b", some (cs! "s"), [], ⟨2, 16⟩, none, ⟨cs! "anyNA(é)", 2, 16, false⟩⟩
      ⟨⟨⟨1, 0⟩, ⟨1, 13⟩⟩, cs! "b s", ⟨cs! "anyNA(é)", 2, 16, true, Rule.anyIsNa.name, 2, 16⟩⟩ ∧
    fixAction ⟨cs! "anyNA(é)", 2, 16, true, Rule.anyIsNa.name, 2, 16⟩ (cs! "x\nany(is.na(é))\n") .utf16 =
      .ok (some ⟨⟨⟨⟨1, 0⟩, ⟨1, 13⟩⟩, cs! "anyNA(é)"⟩, true⟩) := by
  refine ⟨⟨cs! "x\n", cs! "any(is.na(é))", cs! "\n", by decide, by decide, by decide⟩, ⟨⟨cs! "x\n", cs! "any(is.na(é))", cs! "\n",
    by decide, by decide, by decide, by decide⟩, by decide, rfl, ⟨rfl, rfl⟩, ⟨rfl, rfl, rfl⟩, ?_⟩, by decide +kernel⟩
  simp only [true_iff]
  exact ⟨by decide, trivial, .anyIsNa, rfl, by decide⟩

/-- An action in an R file, on the second line, with its indentation. -/
example : ignoreRuleAction (fun _ _ _ => some [⟨true, false, 7⟩]) (cs! "a.R") (cs! "f({\n   x = é\n})") ⟨[], 0, 0, false, Rule.assignment.name, 7, 13⟩ =
    some (some ⟨⟨⟨⟨1, 0⟩, ⟨1, 0⟩⟩, cs! "   # jarl-ignore assignment: <reason>\n"⟩, false⟩) := by decide +kernel

/-- An action in a chunk. -/
example : ignoreChunkAction (cs! "a.qmd") (cs! "# T\n\n```{r}\nx = 1\n```\n") ⟨[], 0, 0, false, Rule.assignment.name, 12, 16⟩ =
    some (some ⟨⟨⟨⟨3, 0⟩, ⟨3, 0⟩⟩, cs! "#| jarl-ignore-chunk:\n#|   - assignment: <reason>\n"⟩, false⟩) := by decide +kernel

end Jarl
