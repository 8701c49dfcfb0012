import Verif.Lemmas.RWeight
import Verif.Props.RFixMain
/-!
# C67: fixes make programs lighter
-/
namespace Jarl
open Spec
variable [Want]

theorem nested_weight {ts p z outer inner c t} (hp : Parses ts p) (hz : z.prog = p) (hoi : outer ≠ inner ∧ '$' ∉ outer ∧ '@' ∉ outer ∧ outer ≠ [])
    (h : nested z outer inner = some (c, t)) : ∃ w, ArgsW c w ∧ w + 5 + nameWeight outer ≤ weight t.e := by
  subst hz
  have hw := WF_plug (fs := z.fs) (e := z.e) hp.2.1
  simp only [nested, Option.bind_eq_bind, Option.bind_eq_some_iff, Option.orElse_eq_orElse, Prod.exists] at h
  obtain ⟨f, args, h1, _, hout, h⟩ := h
  rcases orElse_some h with h | h
  · simp only [Option.bind_eq_some_iff, Prod.exists, Option.some.injEq, Prod.mk.injEq] at h
    obtain ⟨a, ha, v, hv, f2, args2, h2, _, _, rfl, rfl⟩ := h
    have ha := unnamedArgs_mem (head?_mem ha)
    have hv' := argValue_ok (asCall_items hw h1 a ha) hv
    have := asCall_ge hv'.wf h2
    have := asCall_name h1 (guard_some hout) hoi.2
    have := item_weight ha
    have := argValue_weight hv
    exact ⟨_, asCall_textW hv'.wf h2, by omega⟩
  · simp only [Option.bind_eq_some_iff, Prod.exists] at h
    obtain ⟨q, hq, l, o, r, hb, _, ho, h⟩ := h
    have ho := guard_some ho
    subst ho
    obtain ⟨fs, e⟩ := z
    unfold Zip.up at hq
    cases fs with
    | nil => cases hq
    | cons fr fs =>
      cases hq
      have hw' := WF_plug (fs := fs) (e := fr.fill e) hp.2.1
      obtain ⟨g, hb⟩ := asBin_eq hb
      simp only at hb
      rw [hb] at hw'
      have hwt : weight (fr.fill e) = weight l + 1 + weight r := by rw [hb]; rfl
      -- the call of the outer function is one of the two sides
      have hside : e = l ∨ e = r := by
        revert hb; cases fr <;> simp [Frame.fill] <;> intros <;> simp_all
      have h3 := asCall_name h1 (guard_some hout) hoi.2
      simp only at h3
      rcases orElse_some h with h | h
      · simp only [Option.bind_eq_some_iff, Prod.exists, Option.some.injEq, Prod.mk.injEq] at h
        obtain ⟨f2, args2, h2, _, hin, rfl, rfl⟩ := h
        have h4 := asCall_ge hw'.2.2.1 h2
        have h5 := weight_pos hw'.2.1
        refine ⟨_, asCall_textW hw'.2.2.1 h2, ?_⟩
        simp only [hwt]
        rcases hside with rfl | rfl
        · rw [h1] at h2; cases h2; exact absurd ((guard_some hout).symm.trans (guard_some hin)) hoi.1
        · omega
      · simp only [Option.bind_eq_some_iff, Prod.exists, Option.some.injEq, Prod.mk.injEq] at h
        obtain ⟨c', o2, r2, h3, _, ho2, f2, args2, h6, _, _, _, _, rfl, rfl⟩ := h
        have ho2 := guard_some ho2
        subst ho2
        obtain ⟨g', rfl⟩ := asBin_eq h3
        have hwl := hw'.2.2.1
        have h7 := asCall_ge hwl.2.2.2.1 h6
        have h5 := weight_pos hw'.2.1
        refine ⟨_, ExprOk.textW ⟨hwl.1, WF_free (isArgs_of_isArg (isArg_of_isExpr hwl.1)) hwl.2.2.1, ?_⟩, ?_⟩
        · exact Nat.le_trans (by decide) (rp_lp hwl.1 hwl.2.2.1 _ (lbp_even .pipe) (by decide) hwl.2.2.2.2.2.2.1)
        · rcases hside with rfl | rfl
          · cases h1
          · simp only [hwt, weight, opWeight]
            omega

theorem lighter_call {t : Zip} {name c w e' md} {g : Gap} (h : ArgsW c w) (hn : name ∉ specialNames ∧ nameWeight name = 1) (hw : 3 + w < weight t.e) (he : isExpr e' = true) (hwe : WF md e')
    (ht : toks e' = joinHead g (callText name c)) : Lighter t.fs.head? t.e e' :=
  ((ExprW.callText h hn.1).lighter (by rw [hn.2]; omega) he hwe ht).at _

theorem lighter_prefixed {t : Zip} {f : Node} {name c w e' md} {g : Gap} (h : ArgsW c w) (hn : name ∉ specialNames ∧ nameWeight name = 1) (hw : 3 + w < weight t.e) (he : isExpr e' = true) (hwe : WF md e')
    (ht : toks e' = joinHead g (prefixedText f name c)) : Lighter t.fs.head? t.e e' :=
  ((ExprW.prefixed h hn.1).lighter (by rw [hn.2]; omega) he hwe ht).at _

theorem falls_anyIsNa : FallsRule anyIsNa := by
  intro ts p z ed hp hz h md e' he hwe ht
  unrule anyIsNa h
  obtain ⟨c, t, h, rfl⟩ := h
  obtain ⟨w, h1, h2⟩ := nested_weight hp hz (by decide) h
  exact ((ExprW.callText h1 (by decide)).lighter (show _ < weight t.e by simp only [show nameWeight (cs! "anyNA") = 1 by decide]; omega) he hwe ht).at _

theorem falls_whichGrepl : FallsRule whichGrepl := by
  intro ts p z ed hp hz h md e' he hwe ht
  unrule whichGrepl h
  obtain ⟨c, t, h, rfl⟩ := h
  obtain ⟨w, h1, h2⟩ := nested_weight hp hz (by decide) h
  rw [show nameWeight (cs! "which") = 8 by decide] at h2
  refine ((ExprW.callAny h1).lighter (show _ < weight t.e from ?_) he hwe ht).at _
  simp only [show nameWeight (cs! "grep") = 2 by decide, show cs! "grep" ∉ doubleNames by decide, show cs! "grep" ∈ regexNames by decide, show cs! "grep" ≠ cs! "all.equal" by decide, if_true, if_false]
  omega

theorem falls_lengthLevels : FallsRule lengthLevels := by
  intro ts p z ed hp hz h md e' he hwe ht
  unrule lengthLevels h
  obtain ⟨c, t, h, rfl⟩ := h
  obtain ⟨w, h1, h2⟩ := nested_weight hp hz (by decide) h
  exact ((ExprW.callText h1 (by decide)).lighter (show _ < weight t.e by simp only [show nameWeight (cs! "nlevels") = 1 by decide]; omega) he hwe ht).at _

theorem classAndString_weight {l r c s} (hl : ExprOk l) (hr : ExprOk r) (h : classAndString l r = some (c, s)) :
    ∃ w v, ArgsW c w ∧ ArgsW s v ∧ w + 3 + v ≤ weight l + weight r := by
  simp only [classAndString, Option.bind_eq_bind, Option.orElse_eq_orElse] at h
  rcases orElse_some h with h | h
  · simp only [Option.bind_eq_some_iff, Prod.exists, Option.some.injEq, Prod.mk.injEq] at h
    obtain ⟨f, args, h1, _, _, _, _, a, ha, rfl, rfl⟩ := h
    have hm := List.mem_of_getElem? ha
    have := asCall_ge hl.wf h1
    have := item_weight hm
    exact ⟨_, _, (asCall_items hl.wf h1 a hm).textW, hr.textW, by omega⟩
  · simp only [Option.bind_eq_some_iff, Prod.exists, Option.some.injEq, Prod.mk.injEq] at h
    obtain ⟨f, args, h1, _, _, _, _, a, ha, rfl, rfl⟩ := h
    have hm := List.mem_of_getElem? ha
    have := asCall_ge hr.wf h1
    have := item_weight hm
    exact ⟨_, _, (asCall_items hr.wf h1 a hm).textW, hl.textW, by omega⟩

theorem falls_classIdentical : FallsRule classIdentical := by
  intro ts p z ed hp hz h md e' he hwe ht
  have hw := at_place hp hz
  unrule classIdentical h
  obtain ⟨f, args, h1, _, _, a, ha, b, hb, va, hva, vb, hvb, c, s, h, rfl⟩ := h
  have hi := asCall_items hw h1
  obtain ⟨w, v, hc, hs, hle⟩ := classAndString_weight (argValue_ok (hi a (List.mem_of_getElem? ha)) hva) (argValue_ok (hi b (List.mem_of_getElem? hb)) hvb) h
  have h2 := asCall_ge hw h1
  have h3 := sumBy_index (w := argWeight) ha hb (by decide)
  have h4 := items_weight args
  have h5 := argValue_weight hva
  have h6 := argValue_weight hvb
  unfold argWeight at h3 h4
  exact ((ExprW.callText (hc.comma hs) (by decide)).lighter (show _ < weight z.e by simp only [show nameWeight (cs! "inherits") = 1 by decide]; omega) he hwe ht).at _

theorem falls_lengths : FallsRule lengths := by
  intro ts p z ed hp hz h md e' he hwe ht
  have hw := at_place hp hz
  unrule lengths h
  obtain ⟨f, args, h1, _, hf, fn, _, v, _, _, _, x, hx, rfl⟩ := h
  have hf := guard_some hf
  have h2 := asCall_heavy h1 (by revert hf; generalize fnName f = n; intro h; simp only [List.mem_cons, List.not_mem_nil, or_false] at h; rcases h with rfl | rfl | rfl | rfl <;> decide)
  have h3 := item_weight (argBy_mem hx)
  exact lighter_call (t := z) (asCall_items hw h1 x (argBy_mem hx)).textW (by decide) (by omega) he hwe ht

theorem falls_sampleInt : FallsRule sampleInt := by
  intro ts p z ed hp hz h md e' he hwe ht
  have hw := at_place hp hz
  unrule sampleInt h
  obtain ⟨f, args, h1, _, hf, n, hn, l, o, r, hb, _, _, _, ho, rfl⟩ := h
  have ho := guard_some ho
  have hf := guard_some hf
  subst ho
  have hi := asCall_items hw h1
  have hnok := valueBy_ok hi hn
  have hr := right_ok hnok.wf hb (by decide)
  have h2 := asCall_weight h1
  rw [if_pos (callee_of (by rw [hf]; decide))] at h2
  have h3 : 1 ≤ weight f := by obtain ⟨g, g2, he'⟩ := asCall_eq h1; rw [he'] at hw; exact weight_pos hw.1
  have h4 := valueBy_weight hn
  have h5 : 4 + weight r ≤ weight n := by
    obtain ⟨g, rfl⟩ := asBin_eq hb
    have := weight_pos hnok.wf.1
    simp only [weight, opWeight]; omega
  have h6 := items_weight args
  refine lighter_call (t := z) (w := weight r + 1 + weight args) ?_ (by decide) (by omega) he hwe ht
  split
  · next as has => exact hr.textW.comma (ArgsW.join (fun b hb => hi b (dropArg_mem has hb)) (Nat.le_trans (dropArg_weight has) h6))
  · exact hr.textW.mono (by omega)

theorem falls_grepv : FallsRule grepv := by
  intro ts p z ed hp hz h md e' he hwe ht
  have hw := at_place hp hz
  unrule grepv h
  obtain ⟨f, args, h1, _, hf, _, _, rfl⟩ := h
  have hf := guard_some hf
  have h2 := asCall_heavy h1 (by rw [hf]; decide)
  have h6 := items_weight args
  refine lighter_call (t := z) (w := weight args) (ArgsW.join (fun b hb => ?_) ?_) (by decide) (by omega) he hwe ht
  · cases hd : dropArg (items args) (cs! "value") 4 with
    | none => rw [hd] at hb; simp at hb
    | some as => rw [hd] at hb; exact asCall_items hw h1 b (dropArg_mem hd hb)
  · cases hd : dropArg (items args) (cs! "value") 4 with
    | none => simp [sumBy]
    | some as => exact Nat.le_trans (dropArg_weight hd) h6

theorem named_split (as : List Node) : sumBy argWeight (unnamedArgs as) + sumBy argWeight (namedArgs as) = sumBy argWeight as := by
  have := sumBy_split argWeight (fun a => (argName a).isNone) as
  unfold unnamedArgs namedArgs
  rw [← this]
  congr 3
  funext a
  cases argName a <;> rfl

omit [Want] in
theorem value_unnamed {a v} (h : argName a = none) (hv : argValue a = some v) : v = a := by
  cases a <;> simp_all [argName, argValue]

theorem falls_systemFile : FallsRule systemFile := by
  intro ts p z ed hp hz h md e' he hwe ht
  have hw := at_place hp hz
  unrule systemFile h
  obtain ⟨f, args, h1, _, _, _, _, q, hq, v, hv, g, inner, h2, _, _, rfl⟩ := h
  have hi := asCall_items hw h1
  have hqu := (List.mem_filter.mp (head?_mem hq)).1
  have hvok := argValue_ok (hi q (unnamedArgs_mem hqu)) hv
  have k1 := asCall_ge hw h1
  have k2 := asCall_ge hvok.wf h2
  have k3 := argValue_weight hv
  have k4 := sumBy_mem (w := argWeight) hqu
  have k5 := named_split (items args)
  have k6 := items_weight args
  have k7 := items_weight inner
  have k8 : argWeight q = weight q + 1 := rfl
  refine lighter_call (t := z) (w := weight inner + 1 + sumBy argWeight (namedArgs (items args)))
    (ArgsW.comma (ArgsW.join (fun b hb => ?_) ?_) (ArgsW.join (fun b hb => hi b (namedArgs_mem hb)) (by omega))) (by decide) (by omega) he hwe ht
  · exact asCall_items hvok.wf h2 b (List.mem_filter.mp hb).1
  · exact Nat.le_trans (sumBy_sublist (List.filter_sublist ..)) k7

theorem falls_list2df : FallsRule list2df := by
  intro ts p z ed hp hz h md e' he hwe ht
  have hw := at_place hp hz
  unrule list2df h
  obtain ⟨f, args, h1, _, hf, what, _, x, hx, _, _, w, _, _, _, v, hv, rfl⟩ := h
  have hf := guard_some hf
  have k1 := asCall_heavy h1 (by rw [hf]; decide)
  have k2 := item_weight (argBy_mem hx)
  have k3 := argValue_weight hv
  exact lighter_call (t := z) (argValue_ok (asCall_items hw h1 x (argBy_mem hx)) hv).textW (by decide) (by omega) he hwe ht

theorem falls_matrixApply : FallsRule matrixApply := by
  intro ts p z ed hp hz h md e' he hwe ht
  have hw := at_place hp hz
  unrule matrixApply h
  obtain ⟨f, args, h1, _, hf, _, _, x, hx, fn, _, _, _, m, _, _, _, rfl⟩ := h
  have hf := guard_some hf
  have hi := asCall_items hw h1
  have k1 := asCall_heavy h1 (by rw [hf]; decide)
  refine lighter_call (t := z) (w := weight args) ?_ ?_ (by omega) he hwe ht
  · have k2 := valueBy_weight hx
    split
    · next a ha =>
      have hxa : weight x + 1 + weight a ≤ weight args := by
        obtain ⟨b, hb, hbx⟩ := Option.bind_eq_some_iff.mp hx
        have han : argName a = some (cs! "na.rm") := by have := List.find?_some ha; exact of_decide_eq_true this
        have hne : b ≠ a := by
          rintro rfl
          rcases argBy_name hb with h | ⟨h, _⟩
          · rw [han] at h; revert h; decide
          · rw [han] at h; cases h
        have := sumBy_pair (w := argWeight) (argBy_mem hb) (argByName_mem ha) hne
        have := items_weight args
        have := argValue_weight hbx
        have : argWeight a = weight a + 1 := rfl
        have : argWeight b = weight b + 1 := rfl
        omega
      exact ((valueBy_ok hi hx).textW.comma (hi a (argByName_mem ha)).textW).mono hxa
    · exact (valueBy_ok hi hx).textW.mono k2
  · generalize textIs (cs! "mean") fn = b1
    generalize (textIs (cs! "1") m || textIs (cs! "1L") m) = b2
    cases b1 <;> cases b2 <;> decide

theorem seqText_weight {name c w} (h : ArgsW c w) (hn : name ∈ sizeFns) : ExprW (seqText name c) (6 + w) := by
  have h1 : name ≠ cs! "length" → name ∉ specialNames ∧ nameWeight name = 1 := by
    revert hn; unfold sizeFns; intro h hl; simp only [List.mem_cons, List.not_mem_nil, or_false] at h; rcases h with rfl | rfl | rfl | rfl | rfl <;> first | exact absurd rfl hl | decide
  have mono : ∀ {c w v}, ExprW c w → w ≤ v → ExprW c v := by
    rintro c w v ⟨n, a, b, d, e, f, g⟩ h
    exact ⟨n, a, b, d, e, by omega, g⟩
  unfold seqText
  split
  · exact mono (ExprW.callText h (by decide)) (by simp only [show nameWeight (cs! "seq_along") = 1 by decide]; omega)
  · next hl =>
    have h1 := h1 hl
    exact mono (ExprW.callText (ExprW.callText h h1.1).args (by decide)) (by simp only [h1.2, show nameWeight (cs! "seq_len") = 1 by decide]; omega)

theorem falls_seq2 : FallsRule seq2 := by
  intro ts p z ed hp hz h md e' he hwe ht
  have hw := at_place hp hz
  unrule seq2 h
  obtain ⟨f, args, h1, _, hf, _, _, a, ha, v, hv, f2, args2, h2, _, hs, rfl⟩ := h
  have hf := guard_some hf
  have hs := guard_some hs
  have ha := unnamedArgs_mem (head?_mem ha)
  have hv' := argValue_ok (asCall_items hw h1 a ha) hv
  have k1 := asCall_heavy h1 (by rw [hf]; decide)
  have k2 := asCall_ge hv'.wf h2
  have k3 := item_weight ha
  have k4 := argValue_weight hv
  exact ((seqText_weight (asCall_textW hv'.wf h2) hs).lighter (show _ < weight z.e by omega) he hwe ht).at _

theorem falls_seq : FallsRule seq := by
  intro ts p z ed hp hz h md e' he hwe ht
  have hw := at_place hp hz
  unrule seq h
  obtain ⟨l, o, r, h1, _, ho, f, args, h2, _, _, _, hs, rfl⟩ := h
  have ho := guard_some ho
  have hs := guard_some hs
  subst ho
  obtain ⟨g, hg⟩ := asBin_eq h1
  rw [hg] at hw
  have k1 := weight_pos hw.1
  have k2 := asCall_ge hw.2.2.2.1 h2
  have k3 : weight z.e = weight l + 3 + weight r := by rw [hg]; rfl
  have k4 := items_weight args
  exact ((seqText_weight (ArgsW.join (w := weight args) (asCall_items hw.2.2.2.1 h2) k4) hs).lighter (show _ < weight z.e by omega) he hwe ht).at _

omit [Want] in
theorem isExpectEqual_heavy {f} (h : isExpectEqual f = true) : fnName f ∈ heavyNames := by
  unfold isExpectEqual at h
  rcases Bool.or_eq_true_iff.mp h with h | h <;> rw [of_decide_eq_true h] <;> decide

theorem falls_expectNamed : FallsRule expectNamed := by
  intro ts p z ed hp hz h md e' he hwe ht
  have hw := at_place hp hz
  unrule expectNamed h
  obtain ⟨f, args, h1, _, hf, obj, ho, exp, hx', nf, nargs, h2, _, _, _, _, x, hx, rfl⟩ := h
  have hi := asCall_items hw h1
  have k1 := asCall_heavy h1 (isExpectEqual_heavy (guard_some hf))
  have k2 := valueBy_two ho hx' (by decide) (by decide)
  have k3 := asCall_ge (valueBy_ok hi ho).wf h2
  have k4 := valueBy_weight hx
  exact lighter_prefixed (t := z) ((valueBy_ok (asCall_items (valueBy_ok hi ho).wf h2) hx).textW.comma (valueBy_ok hi hx').textW) (by decide) (by omega) he hwe ht

theorem falls_expectTrueFalse : FallsRule expectTrueFalse := by
  intro ts p z ed hp hz h md e' he hwe ht
  have hw := at_place hp hz
  unrule expectTrueFalse h
  obtain ⟨f, args, h1, _, hf, obj, ho, exp, hx, b, other, hc, rfl⟩ := h
  have hi := asCall_items hw h1
  have k1 := asCall_heavy h1 (isExpectEqual_heavy (guard_some hf))
  have : ExprOk other ∧ weight other ≤ weight args := by
    revert hc
    repeat' split
    all_goals (intro hc; first | (cases hc; done) | cases hc; first | exact ⟨valueBy_ok hi ho, valueBy_weight ho⟩ | exact ⟨valueBy_ok hi hx, valueBy_weight hx⟩)
  exact lighter_prefixed (t := z) (this.1.textW.mono this.2) (by split <;> decide) (by omega) he hwe ht

theorem falls_expectNull : FallsRule expectNull := by
  intro ts p z ed hp hz h md e' he hwe ht
  have hw := at_place hp hz
  unrule expectNull h
  obtain ⟨f, args, h1, h⟩ := h
  have hi := asCall_items hw h1
  split at h
  · next hf =>
    simp only [Option.bind_eq_some_iff, Option.some.injEq] at h
    obtain ⟨obj, ho, exp, hx, other, hc, rfl⟩ := h
    have k1 := asCall_heavy h1 (isExpectEqual_heavy hf)
    have : ExprOk other ∧ weight other ≤ weight args := by
      revert hc
      repeat' split
      all_goals (intro hc; first | (cases hc; done) | cases hc; first | exact ⟨valueBy_ok hi ho, valueBy_weight ho⟩ | exact ⟨valueBy_ok hi hx, valueBy_weight hx⟩)
    exact lighter_prefixed (t := z) (this.1.textW.mono this.2) (by decide) (by omega) he hwe ht
  · simp only [Option.bind_eq_some_iff, Option.some.injEq, Prod.exists] at h
    obtain ⟨_, _, obj, ho, g, iargs, h2, _, _, x, hx, rfl⟩ := h
    have k1 := asCall_ge hw h1
    have k2 := asCall_ge (valueBy_ok hi ho).wf h2
    have k3 := valueBy_weight ho
    have k4 := valueBy_weight hx
    exact lighter_prefixed (t := z) (valueBy_ok (asCall_items (valueBy_ok hi ho).wf h2) hx).textW (by decide) (by omega) he hwe ht

theorem falls_expectLength : FallsRule expectLength := by
  intro ts p z ed hp hz h md e' he hwe ht
  have hw := at_place hp hz
  unrule expectLength h
  obtain ⟨f, args, h1, _, hf, obj, ho, exp, hx', _, _, c, other, hc, _, _, g, largs, h2, x, hx, rfl⟩ := h
  have hi := asCall_items hw h1
  have k1 := asCall_heavy h1 (isExpectEqual_heavy (guard_some hf))
  have k2 := valueBy_two ho hx' (by decide) (by decide)
  have : ExprOk c ∧ ExprOk other ∧ weight c + weight other + 1 ≤ weight args := by
    revert hc
    repeat' split
    all_goals (intro hc; first | (cases hc; done) | cases hc; first | exact ⟨valueBy_ok hi ho, valueBy_ok hi hx', by omega⟩ | exact ⟨valueBy_ok hi hx', valueBy_ok hi ho, by omega⟩)
  have k3 := asCall_ge this.1.wf h2
  have k4 := valueBy_weight hx
  exact lighter_prefixed (t := z) ((valueBy_ok (asCall_items this.1.wf h2) hx).textW.comma this.2.1.textW) (by decide) (by omega) he hwe ht

theorem falls_expectType : FallsRule expectType := by
  intro ts p z ed hp hz h md e' he hwe ht
  have hw := at_place hp hz
  unrule expectType h
  obtain ⟨f, args, h1, h⟩ := h
  have hi := asCall_items hw h1
  split at h
  · next hf =>
    simp only [Option.bind_eq_some_iff, Option.some.injEq, Prod.exists] at h
    obtain ⟨_, _, obj, ho, exp, hx', c, other, hc, g, iargs, h2, x, hx, rfl⟩ := h
    have k1 := asCall_heavy h1 (isExpectEqual_heavy hf)
    have k2 := valueBy_two ho hx' (by decide) (by decide)
    have : ExprOk c ∧ ExprOk other ∧ weight c + weight other + 1 ≤ weight args := by
      revert hc
      repeat' split
      all_goals (intro hc; first | (cases hc; done) | cases hc; first | exact ⟨valueBy_ok hi ho, valueBy_ok hi hx', by omega⟩ | exact ⟨valueBy_ok hi hx', valueBy_ok hi ho, by omega⟩)
    have k3 := asCall_ge this.1.wf h2
    have k4 := valueBy_weight hx
    exact lighter_prefixed (t := z) ((valueBy_ok (asCall_items this.1.wf h2) hx).textW.comma this.2.1.textW) (by decide) (by omega) he hwe ht
  · simp only [Option.bind_eq_some_iff, Option.some.injEq, Prod.exists] at h
    obtain ⟨_, _, _, _, obj, ho, g, iargs, h2, ty, _, x, hx, rfl⟩ := h
    have k1 := asCall_ge hw h1
    have k2 := asCall_ge (valueBy_ok hi ho).wf h2
    have k3 := valueBy_weight ho
    have k4 := valueBy_weight hx
    have k5 : atomWeight .str ty = 1 := rfl
    exact lighter_prefixed (t := z) ((valueBy_ok (asCall_items (valueBy_ok hi ho).wf h2) hx).textW.comma (ArgsW.atom (k := .str) (s := ty))) (by decide) (by omega) he hwe ht

theorem falls_expectS3Class : FallsRule expectS3Class := by
  intro ts p z ed hp hz h md e' he hwe ht
  have hw := at_place hp hz
  unrule expectS3Class h
  obtain ⟨f, args, h1, _, hf, obj, ho, exp, hx', _, _, vo, hvo, ve, hve, c, other, hc, s, _, _, _, g, iargs, h2, x, hx, rfl⟩ := h
  have hi := asCall_items hw h1
  have o1 := argValue_ok (hi _ (argBy_mem ho)) hvo
  have o2 := argValue_ok (hi _ (argBy_mem hx')) hve
  have k1 := asCall_heavy h1 (isExpectEqual_heavy (guard_some hf))
  have k2 := valueBy_two (args := args) (Option.bind_eq_some_iff.mpr ⟨_, ho, hvo⟩) (Option.bind_eq_some_iff.mpr ⟨_, hx', hve⟩) (by decide) (by decide)
  have : ExprOk c ∧ ExprOk other ∧ weight c + weight other + 1 ≤ weight args := by
    revert hc
    repeat' split
    all_goals (intro hc; first | (cases hc; done) | cases hc; first | exact ⟨o1, o2, by omega⟩ | exact ⟨o2, o1, by omega⟩)
  have k3 := asCall_ge this.1.wf h2
  have k4 := valueBy_weight hx
  exact lighter_prefixed (t := z) ((valueBy_ok (asCall_items this.1.wf h2) hx).textW.comma this.2.1.textW) (by decide) (by omega) he hwe ht

theorem falls_anyIsNa2 : FallsRule anyIsNa2 := by
  intro ts p z ed hp hz h md e' he hwe ht
  have hw := at_place hp hz
  unrule anyIsNa2 h
  obtain ⟨l, o, r, h1, _, ho, _, _, rfl⟩ := h
  have ho := guard_some ho
  subst ho
  obtain ⟨g, hg⟩ := asBin_eq h1
  have k1 := weight_pos (show isExpr l = true by rw [hg] at hw; exact hw.1)
  have k2 : weight z.e = weight l + 5 + weight r := by rw [hg]; rfl
  exact lighter_call (t := z) (right_ok hw h1 (by simp [rbp, rightAssoc, level, argBp])).textW (by decide) (by omega) he hwe ht

theorem falls_isNumeric : FallsRule isNumeric := by
  intro ts p z ed hp hz h md e' he hwe ht
  have hw := at_place hp hz
  unrule isNumeric h
  obtain ⟨l, o, r, h1, _, ho, fl, al, h2, fr, ar, h3, _, _, _, _, rfl⟩ := h
  obtain ⟨g, hg⟩ := asBin_eq h1
  rw [hg] at hw
  have k1 := asCall_ge hw.2.2.1 h2
  have k2 := weight_pos hw.2.1
  have k3 : weight z.e = weight l + opWeight o + weight r := by rw [hg]; rfl
  have k4 := opWeight_pos o
  exact lighter_call (t := z) (asCall_textW hw.2.2.1 h2) (by decide) (by omega) he hwe ht

theorem names_weight (as : List Node) (ns : List Str) (hn : ns.Nodup) :
    sumBy argWeight (ns.filterMap (argByName as)) ≤ sumBy argWeight (as.filter fun a => decide (∃ n ∈ ns, argName a = some n)) := by
  induction ns with
  | nil => simp [sumBy]
  | cons n ns ih =>
    have ⟨h1, h2⟩ := List.nodup_cons.mp hn
    have ih := ih h2
    have hs := sumBy_split argWeight (fun a => decide (argName a = some n)) (as.filter fun a => decide (∃ m ∈ n :: ns, argName a = some m))
    rw [List.filter_filter, List.filter_filter] at hs
    have e1 : (as.filter fun a => decide (argName a = some n) && decide (∃ m ∈ n :: ns, argName a = some m)) = as.filter fun a => decide (argName a = some n) :=
      List.filter_congr fun a _ => by
        by_cases h : argName a = some n <;> simp [h]
    have e2 : (as.filter fun a => (!decide (argName a = some n)) && decide (∃ m ∈ n :: ns, argName a = some m)) = as.filter fun a => decide (∃ m ∈ ns, argName a = some m) :=
      List.filter_congr fun a _ => by
        by_cases h : argName a = some n
        · simp [h]; exact h1
        · simp [h]
    rw [e1, e2] at hs
    rw [List.filterMap_cons]
    split
    · omega
    · next b hb =>
      rw [sumBy_cons]
      have : b ∈ as.filter fun a => decide (argName a = some n) := List.mem_filter.mpr ⟨argByName_mem hb, by have := List.find?_some hb; exact this⟩
      have := sumBy_mem (w := argWeight) this
      omega

theorem falls_sortRule : FallsRule sortRule := by
  intro ts p z ed hp hz h md e' he hwe ht
  have hw := at_place hp hz
  unrule sortRule h
  obtain ⟨x, args, h1, _, _, a, ha, _, _, v, hv, f, oargs, h2, _, _, _, _, u, hu, _, hs, rfl⟩ := h
  have hs := of_decide_eq_true (guard_some hs)
  have hi := asSubset_items hw h1
  have ho' := (argValue_ok (hi a (head?_mem ha)) hv).wf
  have ho := asCall_items ho' h2
  have hu' := head?_mem hu
  have hx := (ho u (unnamedArgs_mem hu'))
  obtain ⟨g, g2, hz'⟩ := asSubset_eq h1
  have k1 : weight x + 2 + weight args ≤ weight z.e := by rw [hz']; simp only [weight]; omega
  have k2 := item_weight (head?_mem ha)
  have k3 := argValue_weight hv
  have k4 := asCall_ge ho' h2
  have k5 := items_weight oargs
  have k6 := named_split (items oargs)
  have k7 := sumBy_mem (w := argWeight) hu'
  have k8 : argWeight u = weight u + 1 := rfl
  have k9 : sumBy argWeight ([cs! "na.last", cs! "decreasing", cs! "method"].filterMap (argByName (items oargs))) ≤ sumBy argWeight (namedArgs (items oargs)) := by
    refine Nat.le_trans (names_weight _ _ (by decide)) (sumBy_sublist ?_)
    unfold namedArgs
    rw [show (items oargs).filter (fun a => decide (∃ n ∈ [cs! "na.last", cs! "decreasing", cs! "method"], argName a = some n)) =
      ((items oargs).filter fun a => (argName a).isSome).filter (fun a => decide (∃ n ∈ [cs! "na.last", cs! "decreasing", cs! "method"], argName a = some n)) by
        rw [List.filter_filter]
        refine List.filter_congr fun b _ => ?_
        cases hb : argName b <;> simp]
    exact List.filter_sublist ..
  refine lighter_call (t := z) (c := joinComma (trimmed x :: _)) (w := weight u + sumBy argWeight (namedArgs (items oargs))) ?_ (by decide) (by omega) he hwe ht
  rw [← hs]
  have := ArgsW.join (l := u :: [cs! "na.last", cs! "decreasing", cs! "method"].filterMap (argByName (items oargs))) (w := weight u + sumBy argWeight (namedArgs (items oargs)))
    (fun b hb => by
      rcases List.mem_cons.mp hb with rfl | hb
      · exact hx
      · obtain ⟨n, _, hn⟩ := List.mem_filterMap.mp hb
        exact ho b (argByName_mem hn)) (by rw [sumBy_cons]; omega)
  exact this

theorem falls_numericLeadingZero : FallsRule numericLeadingZero := by
  intro ts p z ed hp hz h md e' he hwe ht
  unfold numericLeadingZero at h
  split at h
  · next hz' =>
    cases h
    exact ((ExprW.atom rfl).lighter (by simp only; rw [hz']; simp [weight, atomWeight]) he hwe ht).at _
  · next hz' =>
    cases h
    exact ((ExprW.atom rfl).lighter (by simp only; rw [hz']; simp [weight, atomWeight]) he hwe ht).at _
  · cases h

theorem falls_trueFalseSymbol : FallsRule trueFalseSymbol := by
  intro ts p z ed hp hz h md e' he hwe ht
  unrule trueFalseSymbol h
  obtain ⟨k, new, hc, _, _, rfl⟩ := h
  have key : ∀ s, s ∈ heavyNames → isAtom .id z.e = true → textIs s z.e = true → weight z.e = 2 := by
    intro s hs h1 h2
    revert h1 h2
    cases z.e <;> simp [isAtom, textIs, weight]
    rintro rfl
    simp only [atomWeight, nameWeight]
    intro h
    simp [of_decide_eq_true h, hs]
  have : weight z.e = 2 ∧ (k = .true ∧ new = cs! "TRUE" ∨ k = .false ∧ new = cs! "FALSE") := by
    revert hc
    repeat' split
    · next h => intro hc; cases hc; exact ⟨key _ (by decide) (Bool.and_eq_true_iff.mp h).1 (Bool.and_eq_true_iff.mp h).2, Or.inl ⟨rfl, rfl⟩⟩
    · next h => intro hc; cases hc; exact ⟨key _ (by decide) (Bool.and_eq_true_iff.mp h).1 (Bool.and_eq_true_iff.mp h).2, Or.inr ⟨rfl, rfl⟩⟩
    · intro h; cases h
  refine ((ExprW.atom (k := k) (s := new) ?_).lighter ?_ he hwe ht).at _
  · rcases this.2 with ⟨rfl, rfl⟩ | ⟨rfl, rfl⟩ <;> decide
  · simp only [this.1]
    rcases this.2 with ⟨rfl, rfl⟩ | ⟨rfl, rfl⟩ <;> simp [atomWeight]

theorem falls_sprintfRule : FallsAt sprintfRule := by
  intro ts p z ed hp hz h hnc md e' he hwe ht
  have hw := at_place hp hz
  obtain ⟨f, args, a, g, s, t, n, h1, _, _, _, _, rfl⟩ := sprintfRule_some h
  have := asCall_ge hw h1
  exact lighter_node (n := .atom .none .str t) rfl trivial he hwe ht (by simp [fixAt, weight, atomWeight, bare, calls, asCall]; omega) (.inl hnc)

end Jarl
