import Verif.Lemmas.RFix
/-!
# C51: fixes keep the structure of the program around them
-/
namespace Jarl
open Spec

theorem orElse_some {α} {a : Option α} {b : Unit → Option α} {x} (h : a.orElse b = some x) : a = some x ∨ b () = some x := by
  cases a with
  | none => exact Or.inr h
  | some y => exact Or.inl h

theorem guard_some {p : Prop} [Decidable p] {u} (h : (guard p : Option Unit) = some u) : p := by
  by_cases hp : p
  · exact hp
  · simp [guard, hp] at h

theorem nested_ok {ts p z outer inner c t} (hp : Parses ts p) (hz : z.prog = p) (h : nested z outer inner = some (c, t)) :
    ArgsText c ∧ t.prog = p ∧ isExpr t.e = true := by
  subst hz
  have hw := WF_plug (fs := z.fs) (e := z.e) hp.2.1
  simp only [nested, Option.bind_eq_bind, Option.bind_eq_some_iff, Option.orElse_eq_orElse, Prod.exists] at h
  obtain ⟨f, args, h1, _, _, h⟩ := h
  rcases orElse_some h with h | h
  · simp only [Option.bind_eq_some_iff, Prod.exists, Option.some.injEq, Prod.mk.injEq] at h
    obtain ⟨a, ha, v, hv, f2, args2, h2, _, _, rfl, rfl⟩ := h
    have hv' := argValue_ok (asCall_items hw h1 a (unnamedArgs_mem (head?_mem ha))) hv
    exact ⟨asCall_text hv'.wf h2, rfl, asCall_expr h1⟩
  · simp only [Option.bind_eq_some_iff, Prod.exists] at h
    obtain ⟨q, hq, l, o, r, hb, _, ho, h⟩ := h
    have ho := guard_some ho
    subst ho
    obtain ⟨fs, e⟩ := z
    unfold Zip.up at hq
    cases fs with
    | nil => cases hq
    | cons f fs =>
      cases hq
      have hw' := WF_plug (fs := fs) (e := f.fill e) hp.2.1
      obtain ⟨g, hb⟩ := asBin_eq hb
      simp only at hb
      have hx : isExpr (f.fill e) = true := by rw [hb]; rfl
      rw [hb] at hw'
      rcases orElse_some h with h | h
      · simp only [Option.bind_eq_some_iff, Prod.exists, Option.some.injEq, Prod.mk.injEq] at h
        obtain ⟨f2, args2, h2, _, _, rfl, rfl⟩ := h
        exact ⟨asCall_text hw'.2.2.1 h2, rfl, hx⟩
      · simp only [Option.bind_eq_some_iff, Prod.exists, Option.some.injEq, Prod.mk.injEq] at h
        obtain ⟨c', o2, r2, h3, _, ho2, f2, args2, _, _, _, _, _, rfl, rfl⟩ := h
        have ho2 := guard_some ho2
        subst ho2
        obtain ⟨g', rfl⟩ := asBin_eq h3
        have hwl := hw'.2.2.1
        refine ⟨ExprOk.text ⟨hwl.1, WF_free (isArgs_of_isArg (isArg_of_isExpr hwl.1)) hwl.2.2.1, ?_⟩, rfl, hx⟩
        exact Nat.le_trans (by decide) (rp_lp hwl.1 hwl.2.2.1 _ (lbp_even .pipe) (by decide) hwl.2.2.2.2.2.2.1)

/-- Closed text is safe everywhere. -/
theorem ClosedText.good {z : Zip} {c} {p : Node} {ts} (h : ClosedText c) (hp : Parses ts p) (hz : z.prog = p) (he : isExpr z.e = true) (s : Bool) :
    GoodFix p ⟨z, c, s⟩ := ⟨hz, he, h.keeps hp hz he⟩

/-- Take a rule apart. -/
macro "unrule" n:ident h:ident : tactic =>
  `(tactic| simp only [$n:ident, Option.bind_eq_bind, Option.bind_eq_some_iff, Prod.exists, Option.some.injEq] at $h:ident)

theorem safe_anyIsNa : SafeRule anyIsNa := by
  intro ts p z ed hp hz h _
  unrule anyIsNa h
  obtain ⟨c, t, h, rfl⟩ := h
  obtain ⟨h1, h2, h3⟩ := nested_ok hp hz h
  exact (ClosedText.callText h1).good hp h2 h3 _

theorem safe_whichGrepl : SafeRule whichGrepl := by
  intro ts p z ed hp hz h _
  unrule whichGrepl h
  obtain ⟨c, t, h, rfl⟩ := h
  obtain ⟨h1, h2, h3⟩ := nested_ok hp hz h
  exact (ClosedText.callText h1).good hp h2 h3 _

theorem safe_lengthLevels : SafeRule lengthLevels := by
  intro ts p z ed hp hz h _
  unrule lengthLevels h
  obtain ⟨c, t, h, rfl⟩ := h
  obtain ⟨h1, h2, h3⟩ := nested_ok hp hz h
  exact (ClosedText.callText h1).good hp h2 h3 _

/-- The code at a place of a program. -/
theorem at_place {ts p} {z : Zip} (hp : Parses ts p) (hz : z.prog = p) : WF (modeAt z.fs) z.e := by
  subst hz; exact WF_plug (fs := z.fs) (e := z.e) hp.2.1

theorem classAndString_ok {l r c s} (hl : ExprOk l) (hr : ExprOk r) (h : classAndString l r = some (c, s)) : ArgsText c ∧ ArgsText s := by
  simp only [classAndString, Option.bind_eq_bind, Option.orElse_eq_orElse] at h
  rcases orElse_some h with h | h
  · simp only [Option.bind_eq_some_iff, Prod.exists, Option.some.injEq, Prod.mk.injEq] at h
    obtain ⟨f, args, h1, _, _, _, _, a, ha, rfl, rfl⟩ := h
    exact ⟨(asCall_items hl.wf h1 a (List.mem_of_getElem? ha)).text, hr.text⟩
  · simp only [Option.bind_eq_some_iff, Prod.exists, Option.some.injEq, Prod.mk.injEq] at h
    obtain ⟨f, args, h1, _, _, _, _, a, ha, rfl, rfl⟩ := h
    exact ⟨(asCall_items hr.wf h1 a (List.mem_of_getElem? ha)).text, hl.text⟩

theorem safe_classIdentical : SafeRule classIdentical := by
  intro ts p z ed hp hz h _
  have hw := at_place hp hz
  unrule classIdentical h
  obtain ⟨f, args, h1, _, _, a, ha, b, hb, va, hva, vb, hvb, c, s, h, rfl⟩ := h
  have hi := asCall_items hw h1
  obtain ⟨hc, hs⟩ := classAndString_ok (argValue_ok (hi a (List.mem_of_getElem? ha)) hva) (argValue_ok (hi b (List.mem_of_getElem? hb)) hvb) h
  exact (ClosedText.callText (hc.comma hs)).good hp hz (asCall_expr h1) _

theorem safe_lengths : SafeRule lengths := by
  intro ts p z ed hp hz h _
  have hw := at_place hp hz
  unrule lengths h
  obtain ⟨f, args, h1, _, _, fn, _, v, _, _, _, x, hx, rfl⟩ := h
  exact (ClosedText.callText (asCall_items hw h1 x (argBy_mem hx)).text).good hp hz (asCall_expr h1) _

/-- The right side of an operator. -/
theorem right_ok {md e l o r} (hw : WF md e) (h : asBin e = some (l, o, r)) (ho : argBp ≤ rbp o) : ExprOk r := by
  obtain ⟨g, rfl⟩ := asBin_eq h
  exact ⟨hw.2.1, WF_free (isArgs_of_isArg (isArg_of_isExpr hw.2.1)) hw.2.2.2.1, Nat.le_trans ho hw.2.2.2.2.2.2.2⟩

/-- The left side of an operator. -/
theorem left_ok {md e l o r} (hw : WF md e) (h : asBin e = some (l, o, r)) (ho : argBp ≤ lbp o) : ExprOk l := by
  obtain ⟨g, rfl⟩ := asBin_eq h
  exact ⟨hw.1, WF_free (isArgs_of_isArg (isArg_of_isExpr hw.1)) hw.2.2.1,
    Nat.le_trans ho (rp_lp hw.1 hw.2.2.1 _ (lbp_even o) (by have := lbp_le o; unfold postfixBp; omega) hw.2.2.2.2.2.2.1)⟩

theorem asBin_expr {e l o r} (h : asBin e = some (l, o, r)) : isExpr e = true := by
  obtain ⟨g, rfl⟩ := asBin_eq h; rfl

theorem joined {as : List Node} (h : ∀ a ∈ as, ArgOk a) : ArgsText (joinComma (as.map trimmed)) := by
  refine ArgsText.join fun c hc => ?_
  obtain ⟨a, ha, rfl⟩ := List.mem_map.mp hc
  exact (h a ha).text

theorem safe_sampleInt : SafeRule sampleInt := by
  intro ts p z ed hp hz h _
  have hw := at_place hp hz
  unrule sampleInt h
  obtain ⟨f, args, h1, _, _, n, hn, l, o, r, hb, _, _, _, ho, rfl⟩ := h
  have ho := guard_some ho
  subst ho
  have hi := asCall_items hw h1
  have hr := right_ok (valueBy_ok hi hn).wf hb (by decide)
  refine ClosedText.good (ClosedText.callText ?_) hp hz (asCall_expr h1) _
  split
  · next as has => exact hr.text.comma (joined fun b hb => hi b (dropArg_mem has hb))
  · exact hr.text

theorem safe_grepv : SafeRule grepv := by
  intro ts p z ed hp hz h _
  have hw := at_place hp hz
  unrule grepv h
  obtain ⟨f, args, h1, _, _, _, _, rfl⟩ := h
  refine ClosedText.good (ClosedText.callText (joined fun b hb => ?_)) hp hz (asCall_expr h1) _
  cases hd : dropArg (items args) (cs! "value") 4 with
  | none => rw [hd] at hb; simp at hb
  | some as => rw [hd] at hb; exact asCall_items hw h1 b (dropArg_mem hd hb)

theorem safe_systemFile : SafeRule systemFile := by
  intro ts p z ed hp hz h _
  have hw := at_place hp hz
  unrule systemFile h
  obtain ⟨f, args, h1, _, _, _, _, q, hq, v, hv, g, inner, h2, _, _, rfl⟩ := h
  have hi := asCall_items hw h1
  have hvok := argValue_ok (hi q (unnamedArgs_mem (List.mem_filter.mp (head?_mem hq)).1)) hv
  refine ClosedText.good (ClosedText.callText (ArgsText.comma (joined fun b hb => ?_) (joined fun b hb => hi b (namedArgs_mem hb)))) hp hz (asCall_expr h1) _
  exact asCall_items hvok.wf h2 b (List.mem_filter.mp hb).1

theorem safe_list2df : SafeRule list2df := by
  intro ts p z ed hp hz h _
  have hw := at_place hp hz
  unrule list2df h
  obtain ⟨f, args, h1, _, _, what, _, x, hx, _, _, w, _, _, _, v, hv, rfl⟩ := h
  exact (ClosedText.callText (argValue_ok (asCall_items hw h1 x (argBy_mem hx)) hv).text).good hp hz (asCall_expr h1) _

theorem safe_matrixApply : SafeRule matrixApply := by
  intro ts p z ed hp hz h _
  have hw := at_place hp hz
  unrule matrixApply h
  obtain ⟨f, args, h1, _, _, _, _, x, hx, fn, _, _, _, m, _, _, _, rfl⟩ := h
  have hi := asCall_items hw h1
  refine ClosedText.good (ClosedText.callText ?_) hp hz (asCall_expr h1) _
  split
  · next a ha => exact (valueBy_ok hi hx).text.comma (hi a (argByName_mem ha)).text
  · exact (valueBy_ok hi hx).text

theorem seqText_closed {name c} (h : ArgsText c) : ClosedText (seqText name c) := by
  unfold seqText
  split
  · exact ClosedText.callText h
  · exact ClosedText.callText (ClosedText.callText h).args

theorem safe_seq2 : SafeRule seq2 := by
  intro ts p z ed hp hz h _
  have hw := at_place hp hz
  unrule seq2 h
  obtain ⟨f, args, h1, _, _, _, _, a, ha, v, hv, f2, args2, h2, _, _, rfl⟩ := h
  have hv' := argValue_ok (asCall_items hw h1 a (unnamedArgs_mem (head?_mem ha))) hv
  exact (seqText_closed (asCall_text hv'.wf h2)).good hp hz (asCall_expr h1) _

theorem safe_fixedRegex : SafeRule fixedRegex := by
  intro ts p z ed hp hz h _
  have hw := at_place hp hz
  unrule fixedRegex h
  obtain ⟨f, args, h1, pos, _, _, _, _, _, q, _, s, _, _, _, kept, hk, rfl⟩ := h
  have hi := asCall_items hw h1
  refine ClosedText.good (ClosedText.callText (ArgsText.comma (joined fun b hb => ?_)
    ⟨.named .none .id (cs! "fixed") .none (.atom .none .true (cs! "TRUE")), rfl, ⟨rfl, Or.inr ⟨rfl, trivial, by decide⟩⟩, by decide, rfl⟩))
    hp hz (asCall_expr h1) _
  revert hk
  repeat' split
  all_goals (intro hk; first | exact hi b (dropArg_mem hk hb) | (cases hk; exact hi b hb) | (cases hk; done))

theorem safe_expectNamed : SafeRule expectNamed := by
  intro ts p z ed hp hz h _
  have hw := at_place hp hz
  unrule expectNamed h
  obtain ⟨f, args, h1, _, _, obj, ho, exp, he, nf, nargs, h2, _, _, _, _, x, hx, rfl⟩ := h
  have hi := asCall_items hw h1
  exact (ClosedText.prefixed ((valueBy_ok (asCall_items (valueBy_ok hi ho).wf h2) hx).text.comma (valueBy_ok hi he).text)).good hp hz (asCall_expr h1) _

theorem safe_expectTrueFalse : SafeRule expectTrueFalse := by
  intro ts p z ed hp hz h _
  have hw := at_place hp hz
  unrule expectTrueFalse h
  obtain ⟨f, args, h1, _, _, obj, ho, exp, he, b, other, hc, rfl⟩ := h
  have hi := asCall_items hw h1
  have : ExprOk other := by
    revert hc
    repeat' split
    all_goals (intro hc; first | (cases hc; done) | cases hc; first | exact valueBy_ok hi ho | exact valueBy_ok hi he)
  exact (ClosedText.prefixed this.text).good hp hz (asCall_expr h1) _

theorem safe_expectNull : SafeRule expectNull := by
  intro ts p z ed hp hz h _
  have hw := at_place hp hz
  unrule expectNull h
  obtain ⟨f, args, h1, h⟩ := h
  have hi := asCall_items hw h1
  split at h
  · simp only [Option.bind_eq_some_iff, Option.some.injEq] at h
    obtain ⟨obj, ho, exp, he, other, hc, rfl⟩ := h
    have : ExprOk other := by
      revert hc
      repeat' split
      all_goals (intro hc; first | (cases hc; done) | cases hc; first | exact valueBy_ok hi ho | exact valueBy_ok hi he)
    exact (ClosedText.prefixed this.text).good hp hz (asCall_expr h1) _
  · simp only [Option.bind_eq_some_iff, Option.some.injEq, Prod.exists] at h
    obtain ⟨_, _, obj, ho, g, iargs, h2, _, _, x, hx, rfl⟩ := h
    exact (ClosedText.prefixed (valueBy_ok (asCall_items (valueBy_ok hi ho).wf h2) hx).text).good hp hz (asCall_expr h1) _

theorem safe_expectLength : SafeRule expectLength := by
  intro ts p z ed hp hz h _
  have hw := at_place hp hz
  unrule expectLength h
  obtain ⟨f, args, h1, _, _, obj, ho, exp, he, _, _, c, other, hc, _, _, g, largs, h2, x, hx, rfl⟩ := h
  have hi := asCall_items hw h1
  have : ExprOk c ∧ ExprOk other := by
    revert hc
    repeat' split
    all_goals (intro hc; first | (cases hc; done) | cases hc; first | exact ⟨valueBy_ok hi ho, valueBy_ok hi he⟩ | exact ⟨valueBy_ok hi he, valueBy_ok hi ho⟩)
  exact (ClosedText.prefixed ((valueBy_ok (asCall_items this.1.wf h2) hx).text.comma this.2.text)).good hp hz (asCall_expr h1) _

theorem safe_expectType : SafeRule expectType := by
  intro ts p z ed hp hz h _
  have hw := at_place hp hz
  unrule expectType h
  obtain ⟨f, args, h1, h⟩ := h
  have hi := asCall_items hw h1
  split at h
  · simp only [Option.bind_eq_some_iff, Option.some.injEq, Prod.exists] at h
    obtain ⟨_, _, obj, ho, exp, he, c, other, hc, g, iargs, h2, x, hx, rfl⟩ := h
    have : ExprOk c ∧ ExprOk other := by
      revert hc
      repeat' split
      all_goals (intro hc; first | (cases hc; done) | cases hc; first | exact ⟨valueBy_ok hi ho, valueBy_ok hi he⟩ | exact ⟨valueBy_ok hi he, valueBy_ok hi ho⟩)
    exact (ClosedText.prefixed ((valueBy_ok (asCall_items this.1.wf h2) hx).text.comma this.2.text)).good hp hz (asCall_expr h1) _
  · simp only [Option.bind_eq_some_iff, Option.some.injEq, Prod.exists] at h
    obtain ⟨_, _, _, _, obj, ho, g, iargs, h2, ty, _, x, hx, rfl⟩ := h
    exact (ClosedText.prefixed ((valueBy_ok (asCall_items (valueBy_ok hi ho).wf h2) hx).text.comma (ClosedText.atom .str ty).args)).good hp hz (asCall_expr h1) _

theorem safe_expectS3Class : SafeRule expectS3Class := by
  intro ts p z ed hp hz h _
  have hw := at_place hp hz
  unrule expectS3Class h
  obtain ⟨f, args, h1, _, _, obj, ho, exp, he, _, _, vo, hvo, ve, hve, c, other, hc, s, _, _, _, g, iargs, h2, x, hx, rfl⟩ := h
  have hi := asCall_items hw h1
  have o1 := argValue_ok (hi _ (argBy_mem ho)) hvo
  have o2 := argValue_ok (hi _ (argBy_mem he)) hve
  have : ExprOk c ∧ ExprOk other := by
    revert hc
    repeat' split
    all_goals (intro hc; first | (cases hc; done) | cases hc; first | exact ⟨o1, o2⟩ | exact ⟨o2, o1⟩)
  exact (ClosedText.prefixed ((valueBy_ok (asCall_items this.1.wf h2) hx).text.comma this.2.text)).good hp hz (asCall_expr h1) _

theorem safe_expectMatch (outer new : Str) : SafeRule (expectMatch · outer new) := by
  intro ts p z ed hp hz h _
  have hw := at_place hp hz
  unrule expectMatch h
  obtain ⟨f, args, h1, _, _, _, _, obj, ho, g, gargs, h2, _, _, ip, _, ix, _, x, ⟨ax, hax, hx⟩, q, ⟨aq, haq, hq⟩, _, _, _, _, rfl⟩ := h
  have hi := asCall_items (valueBy_ok (asCall_items hw h1) ho).wf h2
  refine ClosedText.good (ClosedText.prefixed (ArgsText.join fun c hc => ?_)) hp hz (asCall_expr h1) _
  simp only [List.mem_cons] at hc
  rcases hc with rfl | rfl | hc
  · exact (argValue_ok (hi _ (List.mem_of_getElem? hax)) hx).text
  · exact (argValue_ok (hi _ (List.mem_of_getElem? haq)) hq).text
  · obtain ⟨a, ha, rfl⟩ := List.mem_map.mp hc
    obtain ⟨b, hb, rfl⟩ := List.mem_map.mp ha
    have := (List.mem_filter.mp hb).1
    exact (hi _ (by obtain ⟨x, i⟩ := b; exact List.mem_of_getElem? (List.mem_zipIdx_iff_getElem?.mp this))).text

theorem safe_anyIsNa2 : SafeRule anyIsNa2 := by
  intro ts p z ed hp hz h _
  have hw := at_place hp hz
  unrule anyIsNa2 h
  obtain ⟨l, o, r, h1, _, ho, _, _, rfl⟩ := h
  have ho := guard_some ho
  subst ho
  exact (ClosedText.callText (right_ok hw h1 (by simp [rbp, rightAssoc, level, argBp])).text).good hp hz (asBin_expr h1) _

theorem safe_isNumeric : SafeRule isNumeric := by
  intro ts p z ed hp hz h _
  have hw := at_place hp hz
  unrule isNumeric h
  obtain ⟨l, o, r, h1, _, ho, fl, al, h2, fr, ar, h3, _, _, _, _, rfl⟩ := h
  obtain ⟨g, hg⟩ := asBin_eq h1
  rw [hg] at hw
  exact (ClosedText.callText (asCall_text hw.2.2.1 h2)).good hp hz (asBin_expr h1) _

theorem safe_seq : SafeRule seq := by
  intro ts p z ed hp hz h _
  have hw := at_place hp hz
  unrule seq h
  obtain ⟨l, o, r, h1, _, ho, f, args, h2, _, _, _, _, rfl⟩ := h
  obtain ⟨g, hg⟩ := asBin_eq h1
  rw [hg] at hw
  exact (seqText_closed (joined (asCall_items hw.2.2.2.1 h2))).good hp hz (asBin_expr h1) _

theorem safe_sortRule : SafeRule sortRule := by
  intro ts p z ed hp hz h _
  have hw := at_place hp hz
  unrule sortRule h
  obtain ⟨x, args, h1, _, _, a, ha, _, _, v, hv, f, oargs, h2, _, _, _, _, u, hu, _, hs, rfl⟩ := h
  have hs := guard_some hs
  have hi := asSubset_items hw h1
  have ho := asCall_items (argValue_ok (hi a (head?_mem ha)) hv).wf h2
  have hx : ArgsText (trimmed x) := by
    unfold sameText at hs
    rw [← of_decide_eq_true hs]
    exact (ho u (unnamedArgs_mem (head?_mem hu))).text
  refine ClosedText.good (ClosedText.callText (ArgsText.join fun c hc => ?_)) hp hz (by obtain ⟨g, g2, h⟩ := asSubset_eq h1; rw [h]; rfl) _
  simp only [List.mem_cons] at hc
  rcases hc with rfl | hc
  · exact hx
  · obtain ⟨b, hb, rfl⟩ := List.mem_map.mp hc
    obtain ⟨n, _, hn⟩ := List.mem_filterMap.mp hb
    exact (ho b (argByName_mem hn)).text

theorem safe_numericLeadingZero : SafeRule numericLeadingZero := by
  intro ts p z ed hp hz h _
  unfold numericLeadingZero at h
  split at h
  · next he => cases h; exact (ClosedText.atom _ _).good hp hz (by rw [he]; rfl) _
  · next he => cases h; exact (ClosedText.atom _ _).good hp hz (by rw [he]; rfl) _
  · cases h

theorem isAtom_expr {k e} (h : isAtom k e = true) : isExpr e = true := by
  revert h; cases e <;> simp [isAtom, isExpr]

theorem safe_trueFalseSymbol : SafeRule trueFalseSymbol := by
  intro ts p z ed hp hz h _
  unrule trueFalseSymbol h
  obtain ⟨k, new, hc, _, _, rfl⟩ := h
  have : isExpr z.e = true := by
    revert hc
    repeat' split
    · next h => intro _; exact isAtom_expr (Bool.and_eq_true_iff.mp h).1
    · next h => intro _; exact isAtom_expr (Bool.and_eq_true_iff.mp h).1
    · intro h; cases h
  exact (ClosedText.atom _ _).good hp hz this _

theorem sprintfRule_some {z : Zip} {ed : Edit} (h : sprintfRule z = some ed) :
    ∃ f args a g s t n, asCall z.e = some (f, args) ∧ fnName f = cs! "sprintf" ∧ argBy (items args) (cs! "fmt") 0 = some a ∧ argValue a = some (.atom g .str s) ∧
      checkFormat s n = some (.useless t) ∧ ed = fixAt z [tk (.atom .str t)] := by
  unfold sprintfRule at h
  obtain ⟨r, hr, h⟩ := Option.bind_eq_some_iff.mp h
  cases r with
  | invalid => cases h
  | mismatch => cases h
  | useless t =>
    simp only [Option.some.injEq] at h
    unfold sprintfReport at hr
    simp only [Option.bind_eq_bind, Option.bind_eq_some_iff] at hr
    obtain ⟨⟨f, args⟩, h1, _, hf, _, _, a, ha, v, hv, s, hs, hc⟩ := hr
    cases v with
    | atom g k s' =>
      cases k <;> simp at hs
      subst hs
      exact ⟨f, args, a, g, _, t, _, h1, guard_some hf, ha, hv, hc, h.symm⟩
    | _ => simp at hs

theorem safe_sprintfRule : SafeRule sprintfRule := by
  intro ts p z ed hp hz h _
  obtain ⟨f, args, a, g, s, t, n, h1, _, _, _, _, rfl⟩ := sprintfRule_some h
  exact (ClosedText.atom _ _).good hp hz (asCall_expr h1) _

end Jarl
