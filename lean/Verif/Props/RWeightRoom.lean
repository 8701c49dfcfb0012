import Verif.Props.RWeightOps
/-!
# C67: fixes that put in operators make programs lighter
-/
namespace Jarl
open Spec
variable [Want]

/-- A call, with its weight. -/
theorem callW {c name w} (h : ArgsW c w) : ∃ n, isExpr n = true ∧ (∀ md, WF md n) ∧ postfixBp ≤ lp n ∧ rp n = topBp ∧ toks n = callText name c ∧
    weight n ≤ nameWeight name + 2 + w + (if name ∈ doubleNames then w else 0) + (if name ∈ regexNames then 6 else 0) ∧ (name ≠ cs! "all.equal" → bare n = 0) := by
  obtain ⟨n, a, b, d, rfl, e⟩ := h
  refine ⟨.call (.atom .none .id name) .none .par n .none, rfl, fun md => ⟨rfl, trivial, Or.inr rfl, show postfixBp < topBp by decide, a, b, d⟩, by simp [lp, topBp, postfixBp], rfl,
    by simp [Jarl.callText, toks, tk], ?_, fun hn => by simp [bare, calls, asCall, fnName, hn]⟩
  have h1 : regexPrice (.atom .none .id name) n ≤ (if name ∈ regexNames then 6 else 0) := by
    by_cases hr : name ∈ regexNames
    · rw [if_pos hr]; unfold regexPrice; split <;> omega
    · rw [if_neg hr]; unfold regexPrice; rw [if_neg (fun h => hr h.1)]; exact Nat.le_refl _
  have h2 : weight (.call (.atom .none .id name) .none .par n .none) = nameWeight name + 2 + weight n + (if name ∈ doubleNames then weight n else 0) + regexPrice (.atom .none .id name) n := by
    simp [weight, atomWeight, callee_id]
  rw [h2]
  split <;> omega

theorem ArgsW.callAny {c name w} (h : ArgsW c w) : ArgsW (callText name c)
    (nameWeight name + 2 + w + (if name ∈ doubleNames then w else 0) + (if name ∈ regexNames then 6 else 0)) := by
  obtain ⟨n, a, b, d, _, e, f, _⟩ := callW (name := name) h
  exact ⟨n, isArgs_of_isArg (isArg_of_isExpr a), b _, Nat.le_trans (by decide) d, e, f⟩

theorem falls_allEqualFalse : FallsRule allEqualFalse := by
  intro ts p z ed hp hz h md e' he hwe ht
  unrule allEqualFalse h
  obtain ⟨c, t, h, rfl⟩ := h
  obtain ⟨w, h1, h2⟩ := nested_weight hp hz (by decide) h
  rw [show nameWeight (cs! "isFALSE") = 3 by decide] at h2
  have := ((ExprW.callText (name := cs! "isTRUE") (ArgsW.callAny (name := cs! "all.equal") h1) (by decide)).bang)
  rw [show nameWeight (cs! "isTRUE") = 1 by decide, show nameWeight (cs! "all.equal") = 1 by decide, if_neg (by decide), if_neg (by decide)] at this
  exact (this.lighter (show _ < weight t.e by omega) he hwe ht).at _

theorem falls_anyDuplicated : FallsRule anyDuplicated := by
  intro ts p z ed hp hz h md e' he hwe ht
  unrule anyDuplicated h
  obtain ⟨c, t, h, rfl⟩ := h
  obtain ⟨w, h1, h2⟩ := nested_weight hp hz (by decide) h
  rw [show nameWeight (cs! "any") = 1 by decide] at h2
  obtain ⟨m, m1, m2, m3, m4, m6, m7, m8⟩ := callW (name := cs! "anyDuplicated") h1
  rw [show nameWeight (cs! "anyDuplicated") = 1 by decide, if_neg (by decide), if_neg (by decide)] at m7
  refine lighter_node (n := .bin m .none .gt (.atom .none .double (cs! "0"))) rfl
    ⟨m1, rfl, m2 _, trivial, rfl, Or.inr rfl, by rw [m4]; decide, show rbp .gt ≤ topBp by decide⟩ he hwe (by rw [ht]; simp only [toks, m6, fixAt]; rfl) ?_ (.inr rfl)
  have hb : bare (.bin m .none .gt (.atom .none .double (cs! "0"))) = 0 := rfl
  rw [hb]
  simp only [weight, fixAt, opWeight]
  have : atomWeight .double (cs! "0") = 1 := by decide
  omega

theorem falls_lengthTest : FallsRule lengthTest := by
  intro ts p z ed hp hz h md e' he hwe ht
  have hw := at_place hp hz
  unrule lengthTest h
  obtain ⟨f, args, h1, _, hf, a, ha, v, hv, l, o, r, h2, _, ho, rfl⟩ := h
  have ho := guard_some ho
  have hv' := argValue_ok (asCall_items hw h1 a (head?_mem ha)) hv
  have hlv : level o = 10 := by revert ho; cases o <;> simp [isComparison, level]
  have hl := left_ok hv'.wf h2 (by unfold argBp lbp; omega)
  have k1 := asCall_name h1 (guard_some hf) (by decide)
  rw [show nameWeight (cs! "length") = 1 by decide, if_pos (by decide)] at k1
  have k2 := argValue_weight hv
  have k3 := item_weight (head?_mem ha)
  obtain ⟨g, rfl⟩ := asBin_eq h2
  have hwv := hv'.wf
  obtain ⟨m, m1, m2, m3, m4, m6, m7, m8⟩ := callW (name := cs! "length") hl.textW
  rw [show nameWeight (cs! "length") = 1 by decide, if_pos (by decide), if_neg (by decide)] at m7
  refine lighter_node (n := .bin m .none o (setGap .none r)) rfl
    ⟨m1, by rw [setGap_isExpr]; exact hwv.2.1, m2 _, setGap_wf hwv.2.2.2.1, hwv.2.2.2.2.1, Or.inr rfl, by rw [m4]; have := lbp_le o; unfold topBp; omega,
      by rw [setGap_lp]; exact hwv.2.2.2.2.2.2.2⟩ he hwe (by rw [ht]; simp only [toks, m6, fixAt, trimmed_eq hwv.2.1 hwv.2.2.2.1]; rfl) ?_ (.inr rfl)
  have hb : bare (.bin m .none o (setGap .none r)) = 0 := rfl
  have := weight_pos hwv.2.1
  have := opWeight_pos o
  rw [hb]
  simp only [weight, weight_setGap, fixAt] at *
  omega

theorem falls_outerNegation : FallsRule outerNegation := by
  intro ts p z ed hp hz h md e' he hwe ht
  have hw := at_place hp hz
  unrule outerNegation h
  obtain ⟨_, _, f, args, h1, new, hnew, a, ha, _, _, v, hv, o, e, h2, _, _, rfl⟩ := h
  have hm := List.mem_of_getElem? ha
  have hv' := argValue_ok (asCall_items hw h1 a hm) hv
  obtain ⟨g, rfl⟩ := asUn_eq h2
  obtain ⟨e1, e2, k, hk, e3⟩ := hv'.wf
  have hk6 : 6 ≤ k := by revert hk; cases o <;> simp [unLevel] <;> omega
  have hok : ExprOk e := ⟨e1, e2, by unfold argBp; omega⟩
  have hcal : callee f ∈ doubleNames ∧ nameWeight new = 1 := by
    revert hnew
    unfold callee
    split
    · intro h; cases h; decide
    · split
      · intro h; cases h; decide
      · intro h; cases h
  have k1 := asCall_weight h1
  rw [if_pos hcal.1] at k1
  have k4 : 1 ≤ weight f := by obtain ⟨g, g2, he'⟩ := asCall_eq h1; rw [he'] at hw; exact weight_pos hw.1
  have k2 := argValue_weight hv
  have k3 := item_weight hm
  simp only [weight] at k2
  obtain ⟨m, m1, m2, m3, m4, m6, m7, m8⟩ := callW (name := new) hok.textW
  have hnd : new ∈ doubleNames ∧ new ∉ regexNames := by
    revert hnew
    split
    · intro h; cases h; decide
    · split
      · intro h; cases h; decide
      · intro h; cases h
  rw [hcal.2, if_pos hnd.1, if_neg hnd.2] at m7
  have hbm : bare m = 0 := m8 (fun h => by rw [h] at hnd; exact absurd hnd.1 (by decide))
  refine lighter_node (n := .un .none .bang m) rfl ⟨m1, m2 _, 9, rfl, Nat.le_trans (by decide) m3⟩ he hwe (by rw [ht]; simp only [toks, m6, fixAt]; rfl) ?_ (.inr rfl)
  have hb : bare (.un .none .bang m) = 0 := rfl
  rw [hb]
  simp only [weight, fixAt, hbm]
  omega

theorem falls_redundantIfelse : FallsAt redundantIfelse := by
  intro ts p z ed hp hz h hnc md e' he hwe ht
  have hw := at_place hp hz
  unrule redundantIfelse h
  obtain ⟨f, args, h1, n1, n2, n3, hns, _, _, c, hc, t, htv, e, _, h⟩ := h
  have hi := asCall_items hw h1
  have hok := valueBy_ok hi hc
  have hn12 : n1 ≠ n2 := by
    revert hns
    split
    · intro h; cases h; decide
    · split
      · intro h; cases h; decide
      · intro h; cases h
  have k1 := asCall_ge hw h1
  have k2 := valueBy_two hc htv hn12 (by decide)
  have k3 := weight_pos (valueBy_ok hi htv).expr
  have k4 := bare_le c
  split at h
  · cases h
    exact lighter_node (n := c) hok.expr hok.wf he hwe ht (by simp only [fixAt]; omega) (.inl hnc)
  · split at h
    · cases h
      refine lighter_node (n := .un .none .bang (.paren .none c .none)) rfl ⟨rfl, ⟨hok.expr, hok.wf⟩, 9, rfl, show 18 ≤ topBp by decide⟩ he hwe
        (by rw [ht]; simp only [toks, fixAt]; rfl) ?_ (.inl hnc)
      have hb : bare (.un .none .bang (.paren .none c .none)) = 0 ∧ bare (.paren .none c .none) = 0 := ⟨rfl, rfl⟩
      simp only [weight, fixAt, hb.1, hb.2]
      omega
    · cases h

theorem falls_comparisonNegation : FallsRule comparisonNegation := by
  intro ts p z ed hp hz h md e' he hwe ht
  have hw := at_place hp hz
  unrule comparisonNegation h
  obtain ⟨o, a, h1, _, ho, b, h2, l, o2, r, h3, o3, h4, rfl⟩ := h
  obtain ⟨l2, l3, hinf⟩ := negate_level h4
  obtain ⟨b2, b2', _⟩ := cmp_bp l2
  obtain ⟨b3, b3', _⟩ := cmp_bp l3
  have hop : opWeight o3 ≤ opWeight o2 := by revert h4; cases o2 <;> simp [negateComparison] <;> rintro rfl <;> simp [opWeight]
  obtain ⟨g, hg⟩ := asUn_eq h1
  obtain ⟨g1, g2, rfl⟩ := asParen_eq h2
  obtain ⟨g3, rfl⟩ := asBin_eq h3
  have hwz : weight z.e = weight l + opWeight o2 + weight r + 2 + 1 + 0 := by rw [hg]; rfl
  rw [hg] at hw
  have hwb := hw.2.1.2
  refine lighter_node (n := .bin (setGap .none l) .none o3 (setGap .none r)) rfl
    ⟨by rw [setGap_isExpr]; exact hwb.1, by rw [setGap_isExpr]; exact hwb.2.1, setGap_wf hwb.2.2.1, setGap_wf hwb.2.2.2.1, hinf, Or.inr rfl,
      by rw [setGap_rp]; have := hwb.2.2.2.2.2.2.1; omega, by rw [setGap_lp]; have := hwb.2.2.2.2.2.2.2; omega⟩ he hwe
    (by rw [ht]; simp only [toks, trimmed_eq hwb.1 hwb.2.2.1, trimmed_eq hwb.2.1 hwb.2.2.2.1, fixAt]; rfl) ?_ (.inr rfl)
  have hb : bare (.bin (setGap .none l) .none o3 (setGap .none r)) = 0 := rfl
  rw [hb]
  simp only [weight, weight_setGap, fixAt, hwz]
  omega

theorem falls_expectNotTight : FallsRule expectNotTight := by
  intro ts p z ed hp hz h md e' he hwe ht
  have hw := at_place hp hz
  unrule expectNotTight h
  obtain ⟨f, args, h1, obj, ho, o, a, h2, _, hg0, h⟩ := h
  have hg := guard_some hg0
  clear hg0
  unrule expectNot h
  obtain ⟨f', args', h1', _, hf, obj', ho', _, _, o', a', h2', _, hob, _, _, rfl⟩ := h
  rw [h1] at h1'; cases h1'
  rw [ho] at ho'; cases ho'
  rw [h2] at h2'; cases h2'
  have hok := valueBy_ok (asCall_items hw h1) ho
  have hob := guard_some hob
  subst hob
  have k1 := asCall_ge hw h1
  have k2 := valueBy_weight ho
  obtain ⟨g, rfl⟩ := asUn_eq h2
  obtain ⟨w1, w2, k, hk, w3⟩ := hok.wf
  simp only [weight] at k2
  have hin : ExprOk (match asParen a with | some b => b | none => a) ∧ weight (match asParen a with | some b => b | none => a) ≤ weight a := by
    have hm : (∃ g1 b g2, a = .paren g1 b g2 ∧ (match asParen a with | some b => b | none => a) = b) ∨ (match asParen a with | some b => b | none => a) = a := by
      split
      · next b hb =>
        obtain ⟨g1, g2, rfl⟩ := asParen_eq hb
        exact .inl ⟨g1, b, g2, rfl, rfl⟩
      · exact .inr rfl
    replace hg : argBp ≤ lp (match asParen a with | some b => b | none => a) := hg
    generalize (match asParen a with | some b => b | none => a) = inner at hm hg ⊢
    rcases hm with ⟨g1, b, g2, rfl, rfl⟩ | rfl
    · exact ⟨⟨w2.1, w2.2, hg⟩, by simp only [weight]; omega⟩
    · exact ⟨⟨w1, w2, hg⟩, Nat.le_refl _⟩
  exact lighter_prefixed (t := z) (name := if fnName f = cs! "expect_true" then cs! "expect_false" else cs! "expect_true") hin.1.textW (by split <;> decide) (by omega) he hwe ht

theorem falls_repeatOutside : FallsRule repeatOutside := by
  intro ts p z ed hp hz h md e' he hwe ht
  have hw := at_place hp hz
  unfold repeatOutside at h
  split at h
  · cases h
  next hm =>
  obtain ⟨fs, e⟩ := z
  unfold repeatRule at h
  split at h
  · next g g2 c g3 b hwh =>
    simp only at hwh; subst hwh
    split at h
    · cases h
      obtain ⟨h1, h2, h3, h4, h5, h6⟩ := hw
      have hc := weight_pos h1
      have body : ∃ gb ss gb2, WF .free (.braces gb ss gb2) ∧ toks (.braces gb ss gb2) = inBraces b ∧ weight (.braces gb ss gb2) ≤ weight b + 2 := by
        unfold inBraces
        split
        · next g ss g2 => exact ⟨.none, ss, g2, h5, rfl, by simp only [weight]; omega⟩
        · refine ⟨.none, .scons (setGap .none b) [] .snil, .none, ⟨rfl, ?_⟩, by simp [toks, trimmed_eq h4 h5, tk], by simp [weight, weight_setGap]⟩
          exact ⟨by rw [setGap_isExpr]; exact h4, setGap_wf (WF_brace hm h4 h5), rfl, trivial, fun h => absurd rfl h⟩
      obtain ⟨gb, ss, gb2, hb1, hb2, hb3⟩ := body
      refine lighter_node (n := .repE .none (.braces gb ss gb2)) rfl ⟨rfl, hb1, show bodyBp ≤ topBp by decide⟩ he hwe (by rw [ht]; simp only [fixAt]; rw [← hb2]; rfl) ?_ (.inr rfl)
      have hb : bare (.repE .none (.braces gb ss gb2)) = 0 := rfl
      rw [hb]
      simp only [fixAt, weight] at *
      omega
    · cases h
  · cases h

theorem condText_weight {c} (hc : isExpr c = true) (hw : WF .free c) :
    ∃ n, isExpr n = true ∧ WF .free n ∧ lp n = topBp ∧ rp n = topBp ∧ toks n = condText c ∧ weight n ≤ weight c + 2 := by
  unfold condText
  split
  · next h =>
    revert h
    cases c <;> simp only [isAtom] <;> intro h <;> first | (cases h; done) | skip
    next g k s => exact ⟨.atom .none k s, rfl, trivial, rfl, rfl, rfl, by simp [weight]⟩
  · exact ⟨.paren .none c .none, rfl, ⟨hc, hw⟩, rfl, rfl, by simp [toks, tk], Nat.le_refl _⟩

theorem falls_unnecessaryNesting : FallsRule unnecessaryNesting := by
  intro ts p z ed hp hz h md e' he hwe ht
  have hw := at_place hp hz
  obtain ⟨fs, e⟩ := z
  unfold unnecessaryNesting at h
  split at h
  · next g g2 c g3 gb gi gi2 c2 gi3 t2 semis gb2 hi =>
    simp only at hi hw; subst hi
    cases h
    obtain ⟨h1, h2, h3, _, ⟨_, h4⟩, _⟩ := hw
    obtain ⟨_, ⟨h5, h6, h7, h8, h9, h10⟩, _, _, _⟩ := h4
    obtain ⟨n1, a1, a2, a3, a4, a5, a6⟩ := condText_weight h1 h2
    obtain ⟨n2, b1, b2, b3, b4, b5, b6⟩ := condText_weight h5 h6
    refine lighter_node (n := .ifE .none .none (.bin n1 .none .and2 n2) .none (setGap .none t2)) rfl
      ⟨rfl, ⟨a1, b1, a2, b2, rfl, Or.inr rfl, by rw [a4]; decide, by rw [b3]; decide⟩, by simp only [lp, a3]; decide, by rw [setGap_isExpr]; exact h8,
        setGap_wf (WF_free (isArgs_of_isArg (isArg_of_isExpr h8)) h9), by rw [setGap_lp]; exact h10⟩ he hwe
      (by rw [ht]; congr 1; simp [fixAt, toks, tk, a5, b5, trimmed_eq h8 h9]) ?_ (.inr rfl)
    have hb : bare (.ifE .none .none (.bin n1 .none .and2 n2) .none (setGap .none t2)) = 0 ∧ bare (.bin n1 .none .and2 n2) = 0 := ⟨rfl, rfl⟩
    simp only [weight, fixAt, hb.1, hb.2, weight_setGap, opWeight]
    omega
  · cases h

theorem single_weight {e} : weight (singleStatement e) ≤ weight e := by
  unfold singleStatement
  split
  · simp only [weight]; omega
  · exact Nat.le_refl _

theorem falls_coalesceTight : FallsRule coalesceTight := by
  intro ts p z ed hp hz h md e' he hwe ht
  have hw := at_place hp hz
  obtain ⟨fs, e⟩ := z
  unfold coalesceTight at h
  split at h
  next g g2 c g3 t g4 el hi =>
    simp only at hi hw; subst hi
    split at h
    next htight =>
      obtain ⟨h1, h2, h3, h4, h5, h6, h7, h8, h9, h10, h11⟩ := hw
      simp only [coalesce, Option.bind_eq_bind, Option.bind_eq_some_iff, Prod.exists, Option.some.injEq] at h
      obtain ⟨call, same, other, hpick, f, args, hcall, _, _, _, _, x, hx, _, _, rfl⟩ := h
      have hc : WF .free call ∧ weight call ≤ weight c ∧ testedValues c = (items args).filterMap argValue := by
        revert hpick
        split
        · intro h; cases h; exact ⟨h2, Nat.le_refl _, by simp only [testedValues, hcall]⟩
        · next ga a => intro h; cases h; exact ⟨h2.2.1, by simp only [weight]; omega, by simp only [testedValues, hcall]⟩
        · intro h; cases h
      have hot : isExpr other = true ∧ WF (modeAt fs) other ∧ (other = t ∨ other = el) ∧ weight other + 1 ≤ weight t + weight el := by
        have p1 := weight_pos h4
        have p2 := weight_pos h9
        revert hpick
        split
        · intro h; cases h; exact ⟨h4, h5, .inl rfl, by omega⟩
        · intro h; cases h; exact ⟨h9, h10, .inr rfl, by omega⟩
        · intro h; cases h
      obtain ⟨av, hav, hxv⟩ := List.mem_filterMap.mp (head?_mem hx)
      have hxok := argValue_ok (asCall_items hc.1 hcall av hav) hxv
      have hst := single_ok hot.1 hot.2.1
      have k1 := asCall_ge hc.1 hcall
      have k2 := item_weight hav
      have k3 := argValue_weight hxv
      have k4 := single_weight (e := other)
      have htx : tightAround x (.special (cs! "||")) (singleStatement other) = true := by
        rw [hc.2.2, List.all_eq_true] at htight
        have := htight x (head?_mem hx)
        simp only [Bool.and_eq_true] at this
        rcases hot.2.2.1 with rfl | rfl
        · exact this.1
        · exact this.2
      unfold tightAround at htx
      simp only [Bool.and_eq_true, decide_eq_true_eq] at htx
      simp only at ht ⊢
      split at ht
      · exfalso
        have : toks e' = [] := by rw [ht]; rfl
        exact expr_toks he hwe this
      · refine lighter_node (n := .bin (setGap .none x) .none (.special (cs! "||")) (setGap .none (singleStatement other))) rfl
          ⟨by rw [setGap_isExpr]; exact hxok.expr, by rw [setGap_isExpr]; exact hst.1, setGap_wf hxok.wf, setGap_wf hst.2.1, rfl, Or.inr rfl, by rw [setGap_rp]; exact htx.1,
            by rw [setGap_lp]; exact htx.2⟩ he hwe
          (by rw [ht]; simp only [toks, trimmed_eq hxok.expr hxok.wf, trimmed_eq hst.1 hst.2.1]; rfl) ?_ (.inr rfl)
        have hb : bare (.bin (setGap .none x) .none (.special (cs! "||")) (setGap .none (singleStatement other))) = 0 := rfl
        simp only [weight, hb, weight_setGap, opWeight]
        omega
    · cases h
  · cases h

theorem falls_assignmentTight {want : Op} (hwant : Want.op = want) (hwa : want = .assign ∨ want = .eq) : FallsRule (assignmentTight want) := by
  intro ts p z ed hp hz h md e' he hwe ht
  have hw := at_place hp hz
  unrule assignmentTight h
  obtain ⟨l, o, r, h1, _, hg, h⟩ := h
  have hg := guard_some hg
  obtain ⟨g, hze⟩ := asBin_eq h1
  have hwz : weight z.e = weight l + opWeight o + weight r := by rw [hze]; rfl
  have hw1 := hw
  rw [hze] at hw1
  have hinf : Infix want = true ∧ opWeight want = 1 := by
    rcases hwa with rfl | rfl
    · exact ⟨rfl, by simp [opWeight, hwant]⟩
    · exact ⟨rfl, by simp [opWeight, hwant]⟩
  have fr : ∀ {x}, isExpr x = true → WF (modeAt z.fs) x → WF .free x := fun hx h => WF_free (isArgs_of_isArg (isArg_of_isExpr hx)) h
  have key : ∀ a b, isExpr a = true → isExpr b = true → WF .free a → WF .free b → tightAround a want b = true → weight a + 1 + weight b < weight z.e → ed = ⟨z, trimmed a ++ tk (.op want) :: trimmed b, false⟩ →
      Lighter ed.z.fs.head? ed.z.e e' := by
    rintro a b ha hb wa wb ht' hlt rfl
    unfold tightAround at ht'
    simp only [Bool.and_eq_true, decide_eq_true_eq] at ht'
    refine lighter_node (n := .bin (setGap .none a) .none want (setGap .none b)) rfl
      ⟨by rw [setGap_isExpr]; exact ha, by rw [setGap_isExpr]; exact hb, setGap_wf wa, setGap_wf wb, hinf.1, Or.inr rfl, by rw [setGap_rp]; exact ht'.1, by rw [setGap_lp]; exact ht'.2⟩ he hwe
      (by rw [ht]; simp only [toks, trimmed_eq ha wa, trimmed_eq hb wb]; rfl) ?_ (.inr rfl)
    have hb : bare (.bin (setGap .none a) .none want (setGap .none b)) = 0 := rfl
    simp only [weight, hb, weight_setGap, hinf.2]
    omega
  simp only [assignment, h1, Option.bind_eq_bind, Option.bind_some] at h
  have c1 := fr hw1.1 hw1.2.2.1
  have c2 := fr hw1.2.1 hw1.2.2.2.1
  have fin : ∀ other, other ≠ .rassign → opWeight other = 2 → (if o = other then some (⟨z, trimmed l ++ tk (.op want) :: trimmed r, false⟩ : Edit)
      else if o = .rassign then some ⟨z, trimmed r ++ tk (.op want) :: trimmed l, false⟩ else none) = some ed → Lighter ed.z.fs.head? ed.z.e e' := by
    intro other hor hoo h'
    clear h
    split at h'
    · next ho =>
      subst ho
      rw [if_neg hor] at hg
      exact key l r hw1.1 hw1.2.1 c1 c2 hg (by omega) (Option.some.inj h').symm
    · split at h'
      · next ho =>
        subst ho
        rw [if_pos rfl] at hg
        have : opWeight .rassign = 2 := rfl
        exact key r l hw1.2.1 hw1.1 c2 c1 hg (by omega) (Option.some.inj h').symm
      · cases h'
  refine fin _ ?_ ?_ h
  · split <;> decide
  · rcases hwa with rfl | rfl <;> simp [opWeight, hwant]

/-! ## `fixed_regex` -/

/-- The arguments, without the space in front of them. -/
def mkArgs : List Node → Node
  | [] => .hole
  | [a] => setGap .none a
  | a :: b :: as => .comma (setGap .none a) .none (mkArgs (b :: as))

omit [Want] in
theorem argName_setGap (h a) : argName (setGap h a) = argName a := by cases a <;> rfl

omit [Want] in
theorem mkArgs_ok : ∀ {l : List Node}, (∀ a ∈ l, ArgOk a) → isArgs (mkArgs l) = true ∧ WF .free (mkArgs l) ∧ argBp ≤ lp (mkArgs l) ∧ toks (mkArgs l) = joinComma (l.map trimmed)
  | [], _ => ⟨rfl, trivial, by decide, rfl⟩
  | [a], h => by
    have := h a (by simp)
    exact ⟨by rw [mkArgs, setGap_isArgs]; exact isArgs_of_isArg this.arg, setGap_wf this.wf, by rw [mkArgs, setGap_lp]; exact this.lp, setGap_toks this.arg this.wf⟩
  | a :: b :: l, h => by
    have h1 := h a (by simp)
    obtain ⟨i1, i2, i3, i4⟩ := mkArgs_ok (l := b :: l) (fun c hc => h c (List.mem_cons_of_mem _ hc))
    refine ⟨rfl, ⟨by rw [setGap_isArg]; exact h1.arg, setGap_wf h1.wf, by rw [setGap_lp]; exact h1.lp, i1, i2, i3⟩, show argBp ≤ topBp by decide, ?_⟩
    simp only [mkArgs, toks, List.map_cons, joinComma, setGap_toks h1.arg h1.wf] at i4 ⊢
    rw [i4]; rfl

theorem mkArgs_weight : ∀ {l : List Node}, l ≠ [] → weight (mkArgs l) + 1 = sumBy argWeight l
  | [], h => absurd rfl h
  | [a], _ => by rw [mkArgs, weight_setGap]; rfl
  | a :: b :: l, _ => by
    have := mkArgs_weight (l := b :: l) (by simp)
    rw [sumBy_cons, ← this, mkArgs]
    simp only [weight, weight_setGap, argWeight]
    omega

omit [Want] in
theorem argList_one {a} (h : isArg a = true) : argList (setGap .none a) = [setGap .none a] := by
  cases a <;> first | rfl | (simp [isArg, isExpr] at h; done)

omit [Want] in
theorem mkArgs_list : ∀ {l : List Node}, (∀ a ∈ l, ArgOk a) → l ≠ [] → argList (mkArgs l) = l.map (setGap .none)
  | [], _, h => absurd rfl h
  | [a], h, _ => argList_one (h a (by simp)).arg
  | a :: b :: l, h, _ => by
    have := mkArgs_list (l := b :: l) (fun c hc => h c (List.mem_cons_of_mem _ hc)) (by simp)
    rw [mkArgs, argList, this]; rfl

/-- `fixed = TRUE` -/
def fixedArg : Node := .named .none .id (cs! "fixed") .none (.atom .none .true (cs! "TRUE"))

omit [Want] in
theorem fixedArg_ok : ArgOk fixedArg := ⟨rfl, by simp [fixedArg, WF, isExpr, lp, argBp, topBp, nameable], by decide⟩

omit [Want] in
theorem joinComma_snoc {l : List (List Tok)} (h : l ≠ []) (b) : joinComma (l ++ [b]) = joinComma l ++ tk .comma :: b := by
  induction l with
  | nil => exact absurd rfl h
  | cons a l ih =>
    cases l with
    | nil => rfl
    | cons c l => have := ih (by simp); simp only [List.cons_append, joinComma] at this ⊢; rw [this]; simp

omit [Want] in
theorem fixedTrue_mk {kept : List Node} {name} (h : ∀ a ∈ kept, ArgOk a) (hn : ∀ a ∈ kept, argName a ≠ some (cs! "fixed")) (hk : kept ≠ []) :
    fixedTrue name (mkArgs (kept ++ [fixedArg])) = true := by
  have hok : ∀ a ∈ kept ++ [fixedArg], ArgOk a := by
    intro a ha
    rcases List.mem_append.mp ha with ha | ha
    · exact h a ha
    · rw [List.mem_singleton.mp ha]
      exact fixedArg_ok
  have hl := mkArgs_list hok (by simp)
  have hnh : mkArgs (kept ++ [fixedArg]) ≠ .hole := by
    intro hh
    rw [hh] at hl
    have h1 := congrArg List.length hl
    have h2 : 0 < kept.length := List.length_pos_iff.mpr hk
    simp only [argList, List.length_cons, List.length_nil, List.map_append, List.length_append, List.length_map] at h1
    omega
  have hby : argByName (items (mkArgs (kept ++ [fixedArg]))) (cs! "fixed") = some fixedArg := by
    unfold items argByName
    rw [if_neg hnh, hl, List.map_append, List.find?_append]
    have : (kept.map (setGap .none)).find? (fun a => decide (argName a = some (cs! "fixed"))) = none := by
      rw [List.find?_eq_none]
      intro x hx
      obtain ⟨a, ha, rfl⟩ := List.mem_map.mp hx
      rw [argName_setGap]
      simpa using hn a ha
    rw [this]; rfl
  unfold fixedTrue valueBy argBy
  rw [hby]
  rfl

theorem falls_fixedRegexOnce : FallsRule fixedRegexOnce := by
  intro ts p z ed hp hz h md e' he hwe ht
  have hw := at_place hp hz
  unrule fixedRegexOnce h
  obtain ⟨f, args, h1, _, hg0, h⟩ := h
  have hg := guard_some hg0
  clear hg0
  unrule fixedRegex h
  obtain ⟨f', args', h1', pos, hpos, _, hfx, _, _, pat, hpat, s, _, _, _, kept, hkept, rfl⟩ := h
  rw [h1] at h1'; cases h1'
  have hi := asCall_items hw h1
  have hname : fnName f ∈ regexNames ∧ pos = fixedPos (fnName f) ∧ (if fnName f ∈ [cs! "grep", cs! "gsub", cs! "sub"] then 5 else 4) = pos := by
    revert hpos
    unfold fixedPos
    generalize fnName f = n
    split
    · next hm => intro h; cases h; exact ⟨by simp only [List.mem_cons, List.not_mem_nil, or_false] at hm; rcases hm with rfl | rfl | rfl <;> decide, rfl, rfl⟩
    · split
      · next hm => intro h; cases h; exact ⟨by simp only [List.mem_cons, List.not_mem_nil, or_false] at hm; rcases hm with rfl | rfl | rfl | rfl <;> decide, rfl, rfl⟩
      · intro h; cases h
  have hfx := guard_some hfx
  rw [hname.2.2] at hg
  have hft : fixedTrue (fnName f) args = false := by
    unfold fixedTrue
    rw [← hname.2.1]
    have h2 := hfx
    rw [Bool.not_eq_true'] at h2
    exact h2
  have hk : (∀ a ∈ kept, ArgOk a) ∧ (∀ a ∈ kept, argName a ≠ some (cs! "fixed")) ∧ kept ≠ [] ∧ sumBy argWeight kept ≤ sumBy argWeight (items args) := by
    have hpm : ∃ a ∈ items args, argBy (items args) (cs! "pattern") 0 = some a := by
      unfold valueBy at hpat
      obtain ⟨a, q1, _⟩ := Option.bind_eq_some_iff.mp hpat
      exact ⟨a, argBy_mem q1, q1⟩
    obtain ⟨ap, hap, hapb⟩ := hpm
    have hpn : argName ap ≠ some (cs! "fixed") := by
      rcases argBy_name hapb with q | ⟨q, _⟩ <;> rw [q] <;> simp
    have hcase : dropArg (items args) (cs! "fixed") pos = some kept ∨ ((∀ v, valueBy (items args) (cs! "fixed") pos = some v → textIs (cs! "FALSE") v = false) ∧ kept = items args) := by
      cases hvb : valueBy (items args) (cs! "fixed") pos with
      | none => simp only [hvb, Bool.false_eq_true, if_false, Option.some.injEq] at hkept; exact .inr ⟨fun _ h => (nomatch h), hkept.symm⟩
      | some v =>
        simp only [hvb] at hkept
        cases hvt : textIs (cs! "FALSE") v with
        | true => rw [hvt] at hkept; exact .inl (by simpa using hkept)
        | false => rw [hvt] at hkept; exact .inr ⟨fun v' h => by cases h; exact hvt, by simpa using hkept.symm⟩
    rcases hcase with hkept | ⟨hno, hke⟩
    · unfold dropArg at hkept
      split at hkept
      · cases hkept
        refine ⟨fun a ha => hi a (List.mem_filter.mp ha).1, fun a ha => by simpa using (List.mem_filter.mp ha).2, fun hnil => ?_, sumBy_sublist (List.filter_sublist ..)⟩
        have : ap ∈ (items args).filter (fun a => argName a ≠ some (cs! "fixed")) := List.mem_filter.mpr ⟨hap, by simpa using hpn⟩
        rw [hnil] at this; cases this
      · next hany =>
        split at hkept
        · next hlt =>
          cases hkept
          have hsub := List.eraseIdx_sublist (items args) pos
          refine ⟨fun a ha => hi a (hsub.subset ha), fun a ha hn => hany (List.any_eq_true.mpr ⟨a, hsub.subset ha, by simpa using hn⟩), fun hnil => ?_, sumBy_sublist hsub⟩
          have := congrArg List.length hnil
          rw [List.length_eraseIdx_of_lt hlt] at this
          have hp4 : 4 ≤ pos := by rw [← hname.2.2]; split <;> omega
          simp only [List.length_nil] at this
          omega
        · cases hkept
    · rw [hke]
      refine ⟨hi, fun a ha hn => ?_, fun hnil => (by rw [hnil] at hap; cases hap), Nat.le_refl _⟩
      -- then `argBy` finds an argument, which is `FALSE`
      cases hab : argBy (items args) (cs! "fixed") pos with
      | none =>
        unfold argBy at hab
        split at hab
        · cases hab
        · next hbn => unfold argByName at hbn; rw [List.find?_eq_none] at hbn; exact hbn a ha (by simpa using hn)
      | some b =>
        rw [hab] at hg
        simp only at hg
        split at hg
        · next v hv =>
          have := hno v (by unfold valueBy; rw [hab]; exact hv)
          rw [this] at hg; cases hg
        · cases hg
  have k1 := asCall_weight h1
  have k2 : regexPrice f args = 6 := by unfold regexPrice; rw [if_pos ⟨hname.1, hft⟩]
  have hs : '$' ∉ fnName f ∧ '@' ∉ fnName f ∧ fnName f ≠ [] := by
    have := hname.1
    generalize fnName f = n at this
    revert n; decide
  have k3 := fn_name rfl hs
  have hdn : fnName f ∉ doubleNames ∧ fnName f ≠ cs! "all.equal" := by
    have := hname.1
    generalize fnName f = n at this
    revert n; decide
  have hok : ∀ a ∈ kept ++ [fixedArg], ArgOk a := by
    intro a ha
    rcases List.mem_append.mp ha with ha | ha
    · exact hk.1 a ha
    · rw [List.mem_singleton.mp ha]; exact fixedArg_ok
  obtain ⟨m1, m2, m3, m4⟩ := mkArgs_ok hok
  have m5 := mkArgs_weight (l := kept ++ [fixedArg]) (by simp)
  have m6 := fixedTrue_mk (name := fnName f) hk.1 hk.2.1 hk.2.2.1
  have m7 : sumBy argWeight (kept ++ [fixedArg]) = sumBy argWeight kept + 4 := by
    unfold sumBy; rw [List.map_append, List.sum_append]; rfl
  have k4 := items_weight args
  refine lighter_node (g := headGap (toks z.e)) (n := .call (.atom .none .id (fnName f)) .none .par (mkArgs (kept ++ [fixedArg])) .none) rfl
    ⟨rfl, trivial, Or.inr rfl, show postfixBp < topBp by decide, m1, m2, m3⟩ he hwe ?_ ?_ (.inr rfl)
  · rw [ht]
    congr 1
    simp only [toks, m4, List.map_append, fixAt, callText]
    rw [List.map_cons, List.map_nil, joinComma_snoc (by simpa using hk.2.2.1)]
    rfl
  · have hb : bare (.call (.atom .none .id (fnName f)) .none .par (mkArgs (kept ++ [fixedArg])) .none) = 0 := by
      have h0 : fnName (.atom .none .id (fnName f)) ≠ cs! "all.equal" := hdn.2
      simp only [bare, calls, asCall, h0, decide_false, Bool.false_eq_true, if_false]
    have hr : regexPrice (.atom .none .id (fnName f)) (mkArgs (kept ++ [fixedArg])) = 0 := by
      unfold regexPrice
      rw [if_neg]
      rintro ⟨_, h⟩
      rw [show fnName (.atom .none .id (fnName f)) = fnName f from rfl, m6] at h
      cases h
    rw [hb]
    simp only [weight, callee_id, hdn.1, hr, atomWeight, and_false, if_false, if_true, fixAt]
    omega

end Jarl
