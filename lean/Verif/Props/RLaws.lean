import Verif.Lemmas.RLaws
/-!
# C52: what the rules put in is what they document
-/
namespace Jarl
open Spec

theorem unnamed_value {a v} (h : argName a = none) (hv : argValue a = some v) : a = v := by
  revert h hv; cases a <;> simp [argName, argValue] <;> intro h <;> exact h

/-- One item, and it is the one found. -/
theorem one_item {as : List Node} {a} (hl : as.length = 1) (ha : a ∈ as) : as = [a] := by
  match as, hl with
  | [b], _ => simp at ha; subst ha; rfl

theorem items_hole : items .hole = [] := rfl

theorem nested_law {ts p z outer inner c t} (hp : Parses ts p) (hz : z.prog = p) (hne : outer ≠ inner) (ho : Plain outer) (hi : Plain inner)
    (h : nested z outer inner = some (c, t)) (hc : onlyNested t) :
    ∃ f g as, Fn outer f ∧ Fn inner g ∧ core t.e = callOf f [callOf g as] ∧ ∃ as', ArgsCore c as' ∧ ∀ f, callOf f as' = callOf f as := by
  subst hz
  have hw := WF_plug (fs := z.fs) (e := z.e) hp.2.1
  simp only [nested, Option.bind_eq_bind, Option.bind_eq_some_iff, Option.orElse_eq_orElse, Prod.exists] at h
  obtain ⟨f, args, h1, _, hf, h⟩ := h
  have hf0 := guard_some hf
  have hfn := fn_core hf0 ho
  rcases orElse_some h with h | h
  · simp only [Option.bind_eq_some_iff, Prod.exists, Option.some.injEq, Prod.mk.injEq] at h
    obtain ⟨a, ha, v, hv, f2, args2, h2, _, hf2, rfl, rfl⟩ := h
    have hf2 := fn_core (guard_some hf2) hi
    have ham := head?_mem ha
    have hv' := argValue_ok (asCall_items hw h1 a (unnamedArgs_mem ham)) hv
    have hone : (items args).length = 1 := by
      obtain ⟨g, g2, he⟩ := asCall_eq h1
      unfold onlyNested at hc
      rw [he] at hc
      exact hc
    have hia := one_item hone (unnamedArgs_mem ham)
    have hav := unnamed_value (by simpa using (List.mem_filter.mp ham).2) hv
    refine ⟨_, _, _, hfn, hf2, ?_, asCall_raw hv'.wf h2⟩
    rw [asCall_core hw h1, hia, hav, List.map_singleton, asCall_core hv'.wf h2]
  · simp only [Option.bind_eq_some_iff, Prod.exists] at h
    obtain ⟨q, hq, l, o, r, hb, _, hop, h⟩ := h
    have hop := guard_some hop
    subst hop
    obtain ⟨fs, e⟩ := z
    unfold Zip.up at hq
    cases fs with
    | nil => cases hq
    | cons fr fs =>
      cases hq
      have hw' := WF_plug (fs := fs) (e := fr.fill e) hp.2.1
      obtain ⟨g, hb⟩ := asBin_eq hb
      simp only at hb
      obtain ⟨gc, gc2, he⟩ := asCall_eq h1
      simp only at he
      -- the call is the right side
      have side : l = e ∨ r = e := by
        cases fr <;> simp only [Frame.fill] at hb <;> first | (cases hb; first | exact Or.inl rfl | exact Or.inr rfl) | (cases hb; done)
      rw [hb] at hw'
      rcases orElse_some h with h | h
      · simp only [Option.bind_eq_some_iff, Prod.exists, Option.some.injEq, Prod.mk.injEq] at h
        obtain ⟨f2, args2, h2, _, hf2, rfl, rfl⟩ := h
        have hf2' := guard_some hf2
        have hr : r = e := by
          rcases side with rfl | h
          · rw [h1] at h2; cases h2
            exact absurd (hf0.symm.trans hf2') hne
          · exact h
        subst hr
        obtain ⟨ga, ga2, rfl⟩ := asCall_eq h2
        simp only [hb] at hc ⊢
        subst he
        simp only [onlyNested] at hc
        subst hc
        refine ⟨_, _, _, hfn, fn_core hf2' hi, ?_, asCall_raw hw'.2.2.1 h2⟩
        have := asCall_core hw'.2.2.1 h2
        simp only [core, consArg] at this ⊢
        rw [this]; rfl
      · simp only [Option.bind_eq_some_iff, Prod.exists, Option.some.injEq, Prod.mk.injEq] at h
        obtain ⟨c', o2, r2, h3, _, ho2, f2, args2, h4, _, hf2, _, _, rfl, rfl⟩ := h
        have ho2 := guard_some ho2
        subst ho2
        have hf2' := guard_some hf2
        obtain ⟨g', rfl⟩ := asBin_eq h3
        obtain ⟨g5, g6, rfl⟩ := asCall_eq h4
        have hr : r = e := by
          rcases side with rfl | h
          · cases he
          · exact h
        subst hr
        have hwl := hw'.2.2.1
        simp only [hb] at hc ⊢
        subst he
        simp only [onlyNested] at hc
        obtain ⟨rfl, rfl⟩ := hc
        refine ⟨_, _, [core c'], hfn, fn_core hf2' hi, ?_, _, ExprOk.core ⟨hwl.1, WF_free (isArgs_of_isArg (isArg_of_isExpr hwl.1)) hwl.2.2.1, ?_⟩, fun _ => rfl⟩
        · simp only [core, consArg]; rfl
        · exact Nat.le_trans (by decide) (rp_lp hwl.1 hwl.2.2.1 _ (lbp_even .pipe) (by decide) hwl.2.2.2.2.2.2.1)

theorem law_anyIsNa : Lawful (cs! "any_is_na") anyIsNa onlyNested := by
  intro ts p z ed e' hp hz h _ _ hc hpl
  unrule anyIsNa h
  obtain ⟨c, t, h, rfl⟩ := h
  obtain ⟨f, g, as, hf, hg, he, as', ha, hs⟩ := nested_law hp hz (by decide) (by decide) (by decide) h hc
  rw [show core (fixAt t _).z.e = _ from he, (ClosedCore.callText ha).placed hpl, fn, hs]
  exact .any_is_na hf hg

theorem law_whichGrepl : Lawful (cs! "which_grepl") whichGrepl onlyNested := by
  intro ts p z ed e' hp hz h _ _ hc hpl
  unrule whichGrepl h
  obtain ⟨c, t, h, rfl⟩ := h
  obtain ⟨f, g, as, hf, hg, he, as', ha, hs⟩ := nested_law hp hz (by decide) (by decide) (by decide) h hc
  rw [show core (fixAt t _).z.e = _ from he, (ClosedCore.callText ha).placed hpl, fn, hs]
  exact .which_grepl hf hg

theorem law_lengthLevels : Lawful (cs! "length_levels") lengthLevels onlyNested := by
  intro ts p z ed e' hp hz h _ _ hc hpl
  unrule lengthLevels h
  obtain ⟨c, t, h, rfl⟩ := h
  obtain ⟨f, g, as, hf, hg, he, as', ha, hs⟩ := nested_law hp hz (by decide) (by decide) (by decide) h hc
  rw [show core (fixAt t _).z.e = _ from he, (ClosedCore.callText ha).placed hpl, fn, hs]
  exact .length_levels hf hg

theorem law_anyDuplicated : Lawful (cs! "any_duplicated") anyDuplicated onlyNested := by
  intro ts p z ed e' hp hz h _ _ hc hpl
  unrule anyDuplicated h
  obtain ⟨c, t, h, rfl⟩ := h
  obtain ⟨f, g, as, hf, hg, he, as', ha, hs⟩ := nested_law hp hz (by decide) (by decide) (by decide) h hc
  obtain ⟨n, n1, n2, n3, n4, n5, n6⟩ := ClosedCore.callText (name := cs! "anyDuplicated") ha
  have := placed_core (n := .bin n .none .gt (.atom .none .double (cs! "0"))) hpl rfl
    ⟨n1, rfl, n2, trivial, rfl, Or.inr rfl, by rw [n4]; decide, show rbp .gt ≤ topBp by decide⟩ (by simp only [toks, n5, fixAt]; rfl)
  rw [show core (fixAt t _).z.e = _ from he, this]
  simp only [core, n6, fn]
  rw [hs]
  exact .any_duplicated hf hg

theorem law_allEqualFalse : Lawful (cs! "all_equal") allEqualFalse onlyNested := by
  intro ts p z ed e' hp hz h _ _ hc hpl
  unrule allEqualFalse h
  obtain ⟨c, t, h, rfl⟩ := h
  obtain ⟨f, g, as, hf, hg, he, as', ha, hs⟩ := nested_law hp hz (by decide) (by decide) (by decide) h hc
  rw [show core (fixAt t _).z.e = _ from he, (ClosedCore.callText (ClosedCore.callText ha).args).bang rfl hpl]
  simp only [fn]
  rw [hs]
  exact .all_equal_false hf hg

theorem asBin_core {e l o r} (h : asBin e = some (l, o, r)) (ho : o ∉ [Op.pipe, .rassign, .superRassign]) : core e = .bin (core l) .none o (core r) := by
  obtain ⟨g, rfl⟩ := asBin_eq h
  simp only [List.mem_cons, List.not_mem_nil, or_false, not_or] at ho
  cases o <;> simp_all [core]

theorem argsOf_call {e f args} (h : asCall e = some (f, args)) : argsOf e = items args := by
  obtain ⟨g, g2, rfl⟩ := asCall_eq h; rfl

theorem law_lengthTest : Lawful (cs! "length_test") lengthTest onlyPlain := by
  intro ts p z ed e' hp hz h _ _ hc hpl
  have hw := at_place hp hz
  unrule lengthTest h
  obtain ⟨f, args, h1, _, hf, a, ha, v, hv, l, o, r, hb, _, ho, rfl⟩ := h
  have ho := guard_some ho
  have hi := asCall_items hw h1
  obtain ⟨hone, hnn⟩ := hc
  simp only [fixAt, oneArg, noNames, argsOf_call h1] at hone hnn
  have hia := one_item hone (head?_mem ha)
  have hav := unnamed_value (hnn a (head?_mem ha)) hv
  subst hav
  have hok := argValue_ok (hi a (head?_mem ha)) hv
  have hlv : level o = 10 := by revert ho; cases o <;> simp [isComparison, level]
  obtain ⟨b1, b2, b3⟩ := cmp_bp hlv
  have hno : o ∉ [Op.pipe, .rassign, .superRassign] := by revert ho; cases o <;> simp [isComparison]
  have hl := left_ok hok.wf hb (by rw [b1]; decide)
  have hr := right_ok hok.wf hb (by rw [b2]; decide)
  obtain ⟨n, n1, n2, n3, n4, n5, n6⟩ := ClosedCore.callText (name := cs! "length") hl.core
  have hcr := hok.wf
  obtain ⟨gb, rfl⟩ := asBin_eq hb
  have := placed_core (n := .bin n .none o (setGap .none r)) hpl rfl
    ⟨n1, by rw [setGap_isExpr]; exact hr.expr, n2, setGap_wf hr.wf, hcr.2.2.2.2.1, Or.inr rfl, by rw [n4, b1]; decide, by rw [setGap_lp]; exact hcr.2.2.2.2.2.2.2⟩
    (by simp only [toks, n5, fixAt]; rw [setGap_toks (isArg_of_isExpr hr.expr) hr.wf]; rfl)
  rw [show core (fixAt z _).z.e = _ from asCall_core hw h1, hia, this, List.map_singleton, asBin_core hb hno]
  rw [asBin_core (e := .bin n .none o (setGap .none r)) rfl hno, n6, core_setGap]
  exact .length_test (fn_core (guard_some hf) (by decide)) (by revert ho; cases o <;> simp [isComparison, cmpOps])

theorem law_outerNegation : Lawful (cs! "outer_negation") outerNegation onlyNegation := by
  intro ts p z ed e' hp hz h _ _ hc hpl
  have hw := at_place hp hz
  unrule outerNegation h
  obtain ⟨_, _, f, args, h1, new, hn, a, ha, _, hl, v, hv, o, e, h2, _, _, rfl⟩ := h
  have hl := guard_some hl
  have hi := asCall_items hw h1
  have ham := List.mem_of_getElem? ha
  obtain ⟨g, x, rfl⟩ := hc a (by simp only [fixAt, argsOf_call h1]; exact ham)
  simp only [argValue, Option.some.injEq] at hv
  subst hv
  simp only [asUn, Option.some.injEq, Prod.mk.injEq] at h2
  obtain ⟨rfl, rfl⟩ := h2
  have hia : items args = [.un g .bang x] := by
    match hit : items args with
    | [] => rw [hit] at ha; simp at ha
    | [b] => rw [hit] at ha; simpa using ha
    | b :: b2 :: bs => rw [hit] at hl; simp at hl
  have hx := (hi _ ham).wf
  obtain ⟨e1, e2, k, hk, e3⟩ := hx
  simp only [unLevel, Option.some.injEq] at hk
  have hk' : k = 9 := hk.symm
  have hxo : ExprOk x := ⟨e1, e2, by unfold argBp; omega⟩
  rw [show core (fixAt z _).z.e = _ from asCall_core hw h1, hia, List.map_singleton, (ClosedCore.callText hxo.core).bang rfl hpl]
  simp only [core]
  revert hn
  split
  · next ht => intro hn; cases hn; exact .outer_negation_any (textIs_core ht)
  · split
    · next ht => intro hn; cases hn; exact .outer_negation_all (textIs_core ht)
    · intro hn; cases hn

theorem trimmed_toks {a} (h : ExprOk a) : toks (setGap .none a) = trimmed a := setGap_toks (isArg_of_isExpr h.expr) h.wf

theorem law_redundantIfelse : Lawful (cs! "redundant_ifelse") redundantIfelse always := by
  intro ts p z ed e' hp hz h _ _ _ hpl
  have hw := at_place hp hz
  unrule redundantIfelse h
  obtain ⟨f, args, h1, n1, n2, n3, hn, _, hl, c, hc, t, ht, e, he, h⟩ := h
  have hl := guard_some hl
  have hi := asCall_items hw h1
  have hco := valueBy_ok hi hc
  obtain ⟨name, hf, hpar, hd⟩ : ∃ name, Fn name (core f) ∧ ifelseParams name = some (n1, n2, n3) ∧ n1 ≠ n2 ∧ n1 ≠ n3 ∧ n2 ≠ n3 ∧ ([] : Str) ≠ n1 ∧ [] ≠ n2 ∧ [] ≠ n3 := by
    revert hn
    split
    · next hh =>
      intro hn; cases hn
      rcases hh with hh | hh
      · exact ⟨_, fn_core hh (by decide), rfl, by decide⟩
      · exact ⟨_, fn_core hh (by decide), rfl, by decide⟩
    · split
      · next hh => intro hn; cases hn; exact ⟨_, fn_core hh (by decide), rfl, by decide⟩
      · intro hn; cases hn
  obtain ⟨d1, d2, d3, d4⟩ := hd
  obtain ⟨m1, m2, m3, _⟩ := match_three hi d1 d2 d3 [] d4 (Or.inl (by omega)) hc ht he
  have hlen : ((items args).map core).length = 3 := by simpa using hl
  split at h
  · next hb =>
    simp only [Bool.and_eq_true] at hb
    cases h
    rw [show core (fixAt z _).z.e = _ from asCall_core hw h1, placed_core hpl hco.expr hco.wf rfl]
    exact Law.redundant_ifelse (b := false) hf hpar hlen (isArg_map hi) m1 m2 m3 (isAtom_core hb.1) (isAtom_core hb.2)
  · split at h
    · next hb =>
      simp only [Bool.and_eq_true] at hb
      cases h
      rw [show core (fixAt z _).z.e = _ from asCall_core hw h1,
        placed_core (n := .un .none .bang (.paren .none c .none)) hpl rfl ⟨rfl, ⟨hco.expr, hco.wf⟩, 9, rfl, show 18 ≤ topBp by decide⟩ (by simp [toks, fixAt, tk])]
      exact Law.redundant_ifelse (b := true) hf hpar hlen (isArg_map hi) m1 m2 m3 (isAtom_core hb.1) (isAtom_core hb.2)
    · cases h

theorem law_allEqualTrue : Lawful (cs! "all_equal") allEqualTrue always := by
  intro ts p z ed e' hp hz h _ _ _ hpl
  have hw := at_place hp hz
  unrule allEqualTrue h
  obtain ⟨_, _, f, args, h1, _, hf, h⟩ := h
  have hf := fn_core (guard_some hf) (by decide)
  have hx : ExprOk z.e := ExprOk.of (asCall_expr h1) hw (Nat.le_trans (by decide) (call_lp hw h1))
  have hcl := ClosedCore.callText (name := cs! "isTRUE") hx.core
  rw [asCall_core hw h1] at hcl
  obtain ⟨fs, e⟩ := z
  simp only at h hw h1
  split at h
  · cases h
    show Law _ (core e) _
    rw [asCall_core hw h1, hcl.placed hpl]
    exact Law.all_equal_true (b := false) hf
  · cases h
    show Law _ (core e) _
    rw [asCall_core hw h1, hcl.placed hpl]
    exact Law.all_equal_true (b := false) hf
  · cases h
    show Law _ (core e) _
    rw [asCall_core hw h1, hcl.placed hpl]
    exact Law.all_equal_true (b := false) hf
  · next g o fs' _ =>
    simp only [Option.bind_eq_some_iff, Option.some.injEq] at h
    obtain ⟨_, hu, rfl⟩ := h
    have hu := guard_some hu
    have ho : o = .bang := by
      revert hu; unfold underBang
      split
      · intro h; cases h
      · next h => intro _; cases h; rfl
      · intro h; cases h
    subst ho
    rw [hcl.bang rfl hpl]
    simp only [core]
    rw [asCall_core hw h1]
    exact Law.all_equal_true (b := true) hf
  · cases h

theorem callsOne_items {v f args} (h : asCall v = some (f, args)) (hc : callsOne v) : (items args).length = 1 := by
  have := hc
  obtain ⟨g, g2, rfl⟩ := asCall_eq h
  exact this _ _ _ _ rfl

theorem items_one_hole {args a} (h : items args = [a]) : a ≠ .hole := by
  rintro rfl
  unfold items at h
  split at h
  · cases h
  · next hne =>
    cases args <;> simp [argList] at h hne
    next rest => have h2 := h.2; revert h2; cases rest <;> simp [argList]

theorem core_ne_hole {a} (h : ArgOk a) (hne : a ≠ .hole) : core a ≠ .hole := by
  by_cases he : isExpr a = true
  · exact (expr_core_ne he h.wf).2.2
  · have := h.arg
    revert he this hne; cases a <;> simp [isArg, isExpr, core]

theorem classAndString_law {l r c s} (hl : ExprOk l) (hr : ExprOk r) (ol : callsOne l) (or : callsOne r) (h : classAndString l r = some (c, s)) :
    ∃ g x t, Fn (cs! "class") g ∧ x ≠ .hole ∧ Const .str t ∧ ((core l = callOf g [x] ∧ core r = t) ∨ (core l = t ∧ core r = callOf g [x])) ∧ ArgsCore c [x] ∧ ArgsCore s [t] := by
  simp only [classAndString, Option.bind_eq_bind, Option.orElse_eq_orElse] at h
  rcases orElse_some h with h | h
  · simp only [Option.bind_eq_some_iff, Prod.exists, Option.some.injEq, Prod.mk.injEq] at h
    obtain ⟨f, args, h1, _, hf, _, hs, a, ha, rfl, rfl⟩ := h
    have hia := one_item (callsOne_items h1 ol) (List.mem_of_getElem? ha)
    refine ⟨core f, core a, core r, fn_core (guard_some hf) (by decide), core_ne_hole (asCall_items hl.wf h1 a (List.mem_of_getElem? ha)) (items_one_hole hia), isAtom_core (guard_some hs), Or.inl ⟨?_, rfl⟩,
      (asCall_items hl.wf h1 a (List.mem_of_getElem? ha)).core, hr.core⟩
    rw [asCall_core hl.wf h1, hia]; rfl
  · simp only [Option.bind_eq_some_iff, Prod.exists, Option.some.injEq, Prod.mk.injEq] at h
    obtain ⟨f, args, h1, _, hf, _, hs, a, ha, rfl, rfl⟩ := h
    have hia := one_item (callsOne_items h1 or) (List.mem_of_getElem? ha)
    refine ⟨core f, core a, core l, fn_core (guard_some hf) (by decide), core_ne_hole (asCall_items hr.wf h1 a (List.mem_of_getElem? ha)) (items_one_hole hia), isAtom_core (guard_some hs), Or.inr ⟨rfl, ?_⟩,
      (asCall_items hr.wf h1 a (List.mem_of_getElem? ha)).core, hl.core⟩
    rw [asCall_core hr.wf h1, hia]; rfl

theorem two_items {as : List Node} {a b} (hl : as.length = 2) (ha : as[0]? = some a) (hb : as[1]? = some b) : as = [a, b] := by
  match as, hl with
  | [x, y], _ => simp at ha hb; subst ha hb; rfl

theorem law_classIdentical : Lawful (cs! "class_equals") classIdentical onlyTwo := by
  intro ts p z ed e' hp hz h _ _ hc hpl
  have hw := at_place hp hz
  unrule classIdentical h
  obtain ⟨f, args, h1, _, hf, a, ha, b, hb, va, hva, vb, hvb, c, s, h, rfl⟩ := h
  have hi := asCall_items hw h1
  simp only [fixAt, onlyTwo, argsOf_call h1] at hc
  have ham := List.mem_of_getElem? ha
  have hbm := List.mem_of_getElem? hb
  obtain ⟨g, x, t, hg, hxh, ht, hlr, c1, c2⟩ := classAndString_law (argValue_ok (hi a ham) hva) (argValue_ok (hi b hbm) hvb)
    (hc.2 a ham _ hva) (hc.2 b hbm _ hvb) h
  rw [show core (fixAt z _).z.e = _ from asCall_core hw h1, two_items hc.1 ha hb, (ClosedCore.callText (c1.comma c2)).placed hpl]
  refine .class_identical (fn_core (guard_some hf) (by decide)) (isArg_core (hi a ham)) (isArg_core (hi b hbm)) hg hxh ht ?_
  rw [valueOf_core (hi a ham), valueOf_core (hi b hbm), hva, hvb]
  simpa using hlr

/-- The new text is a call, with `!` in front or not. -/
theorem ClosedCore.notIf {z : Zip} {c k e'} {b : Bool} {s} (h : ClosedCore c k) (hp : Placed ⟨z, if b then tk (.op .bang) :: c else c, s⟩ e') :
    Spec.core e' = notIf b k := by
  cases b with
  | true => exact h.bang rfl hp
  | false => exact h.placed hp

theorem ite_decide {α} {p : Prop} [Decidable p] (a b : α) : (if p then a else b) = if decide p = true then a else b := by
  by_cases h : p <;> simp [h]

theorem law_classEquals : Lawful (cs! "class_equals") classEquals sidesOne := by
  intro ts p z ed e' hp hz h _ _ hc hpl
  have hw := at_place hp hz
  unrule classEquals h
  obtain ⟨l, o, r, h1, _, ho, _, _, c, s, h, rfl⟩ := h
  have ho := guard_some ho
  have hl : argBp ≤ lbp o := by rcases ho with rfl | rfl | rfl <;> simp [lbp, level, argBp]
  have hr : argBp ≤ rbp o := by rcases ho with rfl | rfl | rfl <;> simp [rbp, rightAssoc, level, argBp]
  have hc' : callsOne l ∧ callsOne r := by obtain ⟨g, he⟩ := asBin_eq h1; exact hc _ _ _ _ he
  obtain ⟨g, x, t, hg, hxh, ht, hlr, c1, c2⟩ := classAndString_law (left_ok hw h1 hl) (right_ok hw h1 hr) hc'.1 hc'.2 h
  have hno : o ∉ [Op.pipe, .rassign, .superRassign] := by rcases ho with rfl | rfl | rfl <;> simp
  rw [show core (fixAt z _).z.e = _ from asBin_core h1 hno]
  rw [ite_decide] at hpl
  rw [(ClosedCore.callText (c1.comma c2)).notIf hpl]
  exact .class_equals hg hxh ht hlr ho

theorem unnamed_some {a} (h : argName a = none) (hh : a ≠ .hole) : argValue a = some a := by
  revert h hh; cases a <;> simp [argName, argValue]

theorem law_lengths : Lawful (cs! "lengths") lengths onlyFun := by
  intro ts p z ed e' hp hz h _ _ hc hpl
  have hw := at_place hp hz
  unrule lengths h
  obtain ⟨f, args, h1, _, hf, fu, hfu, v, hv, _, hlen, x, hx, rfl⟩ := h
  have hf := guard_some hf
  have hlen := textIs_core (guard_some hlen)
  have hi := asCall_items hw h1
  obtain ⟨g, g2, he⟩ := asCall_eq h1
  obtain ⟨k1, k2, k3, k4⟩ := hc f g args g2 he
  have hnx : argByName (items args) (cs! "x") = none := by
    refine List.find?_eq_none.mpr fun a ha => ?_
    rcases (k4 a ha).2 with h | h | h <;> simp [h]
  have hxu : (unnamedArgs (items args))[0]? = some x := by unfold argBy at hx; rw [hnx] at hx; exact hx
  have hxm := List.mem_filter.mp (List.mem_of_getElem? hxu)
  have hxn : argName x = none := by simpa using hxm.2
  have hnX : ∀ a ∈ items args, argName a ≠ some (cs! "X") := fun a ha => by rcases (k4 a ha).2 with h | h | h <;> simp [h]
  have hvF : valueBy (items args) (cs! "FUN") 1 = some v := by unfold valueBy; rw [hfu]; exact hv
  have hvX : valueBy (items args) (cs! "X") 0 = some x := by
    unfold valueBy argBy
    rw [show argByName (items args) (cs! "X") = none from List.find?_eq_none.mpr fun a ha => by simpa using hnX a ha]
    simp only [hxu, Option.bind_some]
    exact unnamed_some hxn (k4 x hxm.1).1
  rw [show core (fixAt z _).z.e = _ from asCall_core hw h1, (ClosedCore.callText (hi x hxm.1).core).placed hpl]
  have F : ∀ rest, matchArg (cs! "X" :: cs! "FUN" :: rest) ((items args).map core) (cs! "FUN") = some (core v) := fun rest =>
    match_value hi rfl (by simp) (Or.inr (by simpa using hnX)) hvF
  have X : ∀ rest, matchArg (cs! "X" :: cs! "FUN" :: rest) ((items args).map core) (cs! "X") = some (core x) := fun rest =>
    match_value hi rfl (by simp) (Or.inr (by simp)) hvX
  simp only [List.mem_cons, List.not_mem_nil, or_false] at hf
  rcases hf with hf | hf | hf
  · exact .lengths (fn_core hf (by decide)) (by simpa using k1 hf) (isArg_map hi) (F _) hlen (X _)
  · exact .lengths_vapply (fn_core hf (by decide)) (by simpa using k2 hf) (F _) hlen (X _) (isArg_map hi)
  · obtain ⟨k3, k5⟩ := k3 hf
    simp only [noNames, argsOf, fixAt, he] at k5
    have hun : unnamedArgs (items args) = items args := List.filter_eq_self.mpr fun a ha => by simp [k5 a ha]
    rw [hun] at hxu
    have hfu' : (items args)[1]? = some fu := by
      unfold argBy at hfu
      rw [show argByName (items args) (cs! "FUN") = none from List.find?_eq_none.mpr fun a ha => by simp [k5 a ha], hun] at hfu
      exact hfu
    have hvv := unnamed_value (k5 fu (List.mem_of_getElem? hfu')) hv
    rw [two_items k3 hxu hfu', hvv]
    refine .lengths_map ?_ hlen (isArg_core (hi x hxm.1)) (by rw [valueOf_core (hi x hxm.1), unnamed_some hxn (k4 x hxm.1).1]; rfl)
    rcases hf with hf | hf
    · exact Or.inl (fn_core hf (by decide))
    · exact Or.inr (fn_core hf (by decide))

theorem law_sampleInt : Lawful (cs! "sample_int") sampleInt firstPlain := by
  intro ts p z ed e' hp hz h _ _ hc hpl
  have hw := at_place hp hz
  unrule sampleInt h
  obtain ⟨f, args, h1, _, hf, n, hn, l, o, r, hb, _, hone, _, ho, rfl⟩ := h
  have ho := guard_some ho
  subst ho
  have hone := guard_some hone
  have hi := asCall_items hw h1
  obtain ⟨a, as, ha, han, has, hasn⟩ := hc
  simp only [fixAt, argsOf_call h1] at ha
  have hnn : ∀ b ∈ items args, argName b ≠ some (cs! "n") := by
    rw [ha]; intro b hb; rcases List.mem_cons.mp hb with rfl | hb
    · rw [han]; simp
    · exact hasn b hb
  have hva : argValue a = some n := by
    unfold valueBy argBy at hn
    rw [show argByName (items args) (cs! "n") = none from List.find?_eq_none.mpr fun a ha => by simpa using hnn a ha] at hn
    rw [ha] at hn
    simpa [unnamedArgs, han] using hn
  have han' := unnamed_value han hva
  subst han'
  have hao := hi a (by rw [ha]; simp)
  have hr := right_ok hao.wf hb (by decide)
  have hd : dropArg (items args) (cs! "n") 0 = some as := by
    unfold dropArg
    rw [if_neg (by simpa using hnn), ha]; simp
  rw [hd] at hpl
  rw [show core (fixAt z _).z.e = _ from asCall_core hw h1, ha, List.map_cons, asBin_core hb (by simp),
    (ClosedCore.callText (hr.core.comma (ArgsCore.join (fun b hb => hi b (by rw [ha]; simp [hb])) has))).placed hpl]
  refine .sample_int (fn_core (guard_some hf) (by decide)) ?_ (by simpa using has) (isArg_map fun b hb => hi b (by rw [ha]; simp [hb]))
  simp only [Bool.or_eq_true] at hone
  rcases hone with h | h
  · exact Or.inl (textIs_core h)
  · exact Or.inr (textIs_core h)

theorem law_grepv : Lawful (cs! "grepv") grepv valueTrue := by
  intro ts p z ed e' hp hz h _ _ hc hpl
  have hw := at_place hp hz
  unrule grepv h
  obtain ⟨f, args, h1, _, hf, _, _, rfl⟩ := h
  have hi := asCall_items hw h1
  have J : ∀ {as : List Node} (_ : ∀ a ∈ as, a ∈ items args), ∃ as', ArgsCore (joinComma (as.map trimmed)) as' ∧ ∀ f, callOf f as' = callOf f (as.map core) := by
    intro as has
    by_cases hne : as = []
    · subst hne; exact ⟨_, ArgsCore.nil, fun _ => rfl⟩
    · exact ⟨_, ArgsCore.join (fun a ha => hi a (has a ha)) hne, fun _ => rfl⟩
  rw [show core (fixAt z _).z.e = _ from asCall_core hw h1]
  simp only [valueTrue, fixAt, argsOf_call h1, noNames] at hc
  rcases hc with ⟨g, k, s, g2, hh, t, hm, rfl⟩ | ⟨hn, a, b, c, d, hh, t, hit⟩
  · have hd : dropArg (items args) (cs! "value") 4 = some ((items args).filter (fun a => argName a ≠ some (cs! "value"))) := by
      unfold dropArg
      rw [if_pos (List.any_eq_true.mpr ⟨_, hm, by simp [argName]⟩)]
    rw [hd, Option.getD_some] at hpl
    obtain ⟨as', ha, hs⟩ := J (as := (items args).filter (fun a => argName a ≠ some (cs! "value"))) fun a ha => (List.mem_filter.mp ha).1
    rw [(ClosedCore.callText ha).placed hpl, fn, hs, ← filter_core (p := fun o => decide (o ≠ some (cs! "value"))) hi]
    exact .grepv (k := t) (g := k) (fn_core (guard_some hf) (by decide)) (isArg_map hi) (List.mem_map.mpr ⟨_, hm, rfl⟩)
  · have hd : dropArg (items args) (cs! "value") 4 = some [a, b, c, d] := by
      unfold dropArg
      rw [if_neg (by simp only [List.any_eq_true, not_exists, not_and]; intro x hx; simp [hn x hx]), hit]
      rfl
    rw [hd, Option.getD_some] at hpl
    obtain ⟨as', ha, hs⟩ := J (as := [a, b, c, d]) (fun x hx => by rw [hit]; exact List.mem_append_left [_] hx)
    rw [(ClosedCore.callText ha).placed hpl, fn, hs, hit]
    refine .grepv_position (fn_core (guard_some hf) (by decide)) fun e he => ?_
    obtain ⟨x, hx, rfl⟩ := List.mem_map.mp (show e ∈ [a, b, c, d].map core from he)
    have hx' : x ∈ items args := by rw [hit]; exact List.mem_append_left [_] hx
    exact ⟨by rw [nameOf_core (hi x hx')]; exact hn x hx', isArg_core (hi x hx')⟩

theorem law_systemFile : Lawful (cs! "system_file") systemFile oneUnnamed := by
  intro ts p z ed e' hp hz h _ _ hc hpl
  have hw := at_place hp hz
  unrule systemFile h
  obtain ⟨f, args, h1, _, hf, _, _, q, hq, v, hv, g, inner, h2, _, hpe, rfl⟩ := h
  have hi := asCall_items hw h1
  obtain ⟨a, hu, hne, hnn, hnh⟩ := hc
  simp only [fixAt, argsOf_call h1] at hu hne
  have hqm := List.mem_filter.mp (head?_mem hq)
  have hqa : q = a := by have := hqm.1; rw [hu] at this; simpa using this
  subst hqa
  have hqi := unnamedArgs_mem hqm.1
  have hqn : argName q = none := by simpa using (List.mem_filter.mp hqm.1).2
  have hvv := unnamed_value hqn hv
  subst hvv
  have hqo := argValue_ok (hi q hqi) hv
  have hii := asCall_items hqo.wf h2
  simp only [noNames, argsOf_call h2] at hnn hnh
  have hparts : (items inner).filter (fun a => (argValue a).isSome) = items inner :=
    List.filter_eq_self.mpr fun b hb => by rw [unnamed_some (hnn b hb) (fun h => hnh (h ▸ hb))]; rfl
  have hitem : items inner ≠ [] := by have := guard_some hpe; rw [hparts] at this; simpa using this
  rw [hparts] at hpl
  have hnf : ((items args).map core).filter (fun a => (nameOf a).isSome) = (namedArgs (items args)).map core := filter_core (p := fun o => o.isSome) hi
  have huf : ((items args).map core).filter (fun a => (nameOf a).isNone) = (unnamedArgs (items args)).map core := filter_core (p := fun o => o.isNone) hi
  rw [show core (fixAt z _).z.e = _ from asCall_core hw h1,
    (ClosedCore.callText ((ArgsCore.join hii hitem).comma (ArgsCore.join (fun b hb => hi b (namedArgs_mem hb)) hne))).placed hpl, ← hnf]
  refine .system_file (g := core g) (fn_core (guard_some hf) (by decide)) ?_ ?_ ?_ (by simpa using hitem) ?_ (isArg_map hi)
  · rw [huf, hu, List.map_singleton, asCall_core hqo.wf h2]
  · have := hqm.2
    rw [hv] at this
    simp only [h2] at this
    exact textIs_core this
  · rw [hnf]; simpa using hne
  · intro b hb
    obtain ⟨c, hc, rfl⟩ := List.mem_map.mp hb
    exact ⟨by rw [nameOf_core (hii c hc)]; exact hnn c hc, core_ne_hole (hii c hc) (fun h => hnh (h ▸ hc)), isArg_core (hii c hc)⟩

theorem law_list2df : Lawful (cs! "list2df") list2df always := by
  intro ts p z ed e' hp hz h _ _ hc hpl
  have hw := at_place hp hz
  unrule list2df h
  obtain ⟨f, args, h1, _, hf, what, hwh, x, hx, _, hl, w, hwv, _, ht, v, hv, rfl⟩ := h
  have hi := asCall_items hw h1
  have hl : (items args).length ≤ 2 := by have := guard_some hl; simpa using this
  obtain ⟨m1, m2, m3⟩ := match_two hi (by decide) hl (show valueBy (items args) (cs! "what") 0 = some w by unfold valueBy; rw [hwh]; exact hwv)
    (show valueBy (items args) (cs! "args") 1 = some v by unfold valueBy; rw [hx]; exact hv)
  rw [show core (fixAt z _).z.e = _ from asCall_core hw h1, (ClosedCore.callText (argValue_ok (hi x (argBy_mem hx)) hv).core).placed hpl]
  refine .list2df (fn_core (guard_some hf) (by decide)) (by simpa using m3) (isArg_map hi) m1 ?_ m2
  have ht := guard_some ht
  simp only [Bool.or_eq_true] at ht
  rcases ht with (h | h) | h
  · exact Or.inl (textIs_core h)
  · exact Or.inr (Or.inl (textIs_core h))
  · exact Or.inr (Or.inr (textIs_core h))

theorem seq_len_law {name : Str} (h : name ∈ sizeFns) (h' : name ≠ cs! "length") : name ∈ [cs! "nrow", cs! "ncol", cs! "NROW", cs! "NCOL"] := by
  simp only [sizeFns, List.mem_cons] at h ⊢
  exact h.resolve_left h'

theorem sizeFns_plain {name : Str} (h : name ∈ sizeFns) : Plain name := by
  simp only [sizeFns, List.mem_cons, List.not_mem_nil, or_false] at h
  rcases h with rfl | rfl | rfl | rfl | rfl <;> decide

theorem law_seq2 : Lawful (cs! "seq2") seq2 always := by
  intro ts p z ed e' hp hz h _ _ _ hpl
  have hw := at_place hp hz
  unrule seq2 h
  obtain ⟨f, args, h1, _, hf, _, hl, a, ha, v, hv, f2, args2, h2, _, hf2, rfl⟩ := h
  have hi := asCall_items hw h1
  have ham := head?_mem ha
  have hvo := argValue_ok (hi a (unnamedArgs_mem ham)) hv
  have hav := unnamed_value (by simpa using (List.mem_filter.mp ham).2) hv
  subst hav
  have hia := one_item (guard_some hl) (unnamedArgs_mem ham)
  have hf2 := guard_some hf2
  obtain ⟨as', hr, hs⟩ := asCall_raw hvo.wf h2
  rw [show core (fixAt z _).z.e = _ from asCall_core hw h1, hia, List.map_singleton, asCall_core hvo.wf h2]
  unfold seqText at hpl
  split at hpl
  · next hn =>
    rw [(ClosedCore.callText hr).placed hpl, fn, hs]
    exact .seq2_length (fn_core (guard_some hf) (by decide)) (fn_core hn (by decide))
  · next hn =>
    rw [(ClosedCore.callText (ClosedCore.callText hr).args).placed hpl]
    have := hs (sym (fnName f2))
    simp only [fn, this]
    exact .seq2_len (fn_core (guard_some hf) (by decide)) (fn_core rfl (sizeFns_plain hf2)) (seq_len_law hf2 hn)

theorem law_seq : Lawful (cs! "seq") seq always := by
  intro ts p z ed e' hp hz h _ _ _ hpl
  have hw := at_place hp hz
  unrule seq h
  obtain ⟨l, o, r, hb, _, ho, f, args, h1, _, hone, _, hf, rfl⟩ := h
  have ho := guard_some ho
  subst ho
  have hf := guard_some hf
  have hr := right_ok hw hb (by decide)
  have hi := asCall_items hr.wf h1
  have hone : One (core l) := by
    have := guard_some hone
    simp only [Bool.or_eq_true] at this
    rcases this with h | h
    · exact Or.inl (textIs_core h)
    · exact Or.inr (textIs_core h)
  obtain ⟨as', hr', hs⟩ : ∃ as', ArgsCore (joinComma ((items args).map trimmed)) as' ∧ ∀ f, callOf f as' = callOf f ((items args).map core) := by
    by_cases hne : items args = []
    · rw [hne]; exact ⟨_, ArgsCore.nil, fun _ => rfl⟩
    · exact ⟨_, ArgsCore.join hi hne, fun _ => rfl⟩
  rw [show core (fixAt z _).z.e = _ from asBin_core hb (by simp), asCall_core hr.wf h1]
  unfold seqText at hpl
  split at hpl
  · next hn =>
    rw [(ClosedCore.callText hr').placed hpl, fn, hs]
    exact .seq_length hone (fn_core hn (by decide))
  · next hn =>
    rw [(ClosedCore.callText (ClosedCore.callText hr').args).placed hpl]
    have := hs (sym (fnName f))
    simp only [fn, this]
    exact .seq_len hone (fn_core rfl (sizeFns_plain hf)) (seq_len_law hf hn)

theorem valueBy_filter {as n x pos} (h : n ≠ x) : valueBy (as.filter (fun a => argName a ≠ some n)) x pos = valueBy as x pos := by
  have h1 : argByName (as.filter (fun a => argName a ≠ some n)) x = argByName as x := by
    unfold argByName
    rw [List.find?_filter]
    congr 1; funext a
    by_cases hx : argName a = some x
    · simp [hx, Ne.symm h]
    · simp [hx]
  have h2 : unnamedArgs (as.filter (fun a => argName a ≠ some n)) = unnamedArgs as := by
    unfold unnamedArgs
    rw [List.filter_filter]
    congr 1; funext a
    cases argName a <;> simp
  unfold valueBy argBy
  rw [h1, h2]

theorem filter_not_length {α} (l : List α) (p : α → Bool) : (l.filter p).length + (l.filter (fun a => !p a)).length = l.length := by
  induction l with
  | nil => rfl
  | cons a as ih => cases h : p a <;> simp [h] <;> omega

theorem law_matrixApply : Lawful (cs! "matrix_apply") matrixApply always := by
  intro ts p z ed e' hp hz h _ _ _ hpl
  have hw := at_place hp hz
  unrule matrixApply h
  obtain ⟨f, args, h1, _, hf, _, hl, x, hx, fu, hfu, _, hft, m, hm, _, hmt, rfl⟩ := h
  have hl := guard_some hl
  have hft := guard_some hft
  have hmt := guard_some hmt
  have hi := asCall_items hw h1
  have hnr : ∀ {a}, argByName (items args) (cs! "na.rm") = some a → NamedIn (items args) (cs! "na.rm") := fun h =>
    ⟨_, argByName_mem h, by simpa using List.find?_some (p := fun a => decide (argName a = some (cs! "na.rm"))) h⟩
  obtain ⟨m1, m2, m3, -, -⟩ := match_three hi (x := cs! "X") (y := cs! "MARGIN") (w := cs! "FUN") (by decide) (by decide) (by decide) (cs! "na.rm") (by decide)
    (by
      cases hn : argByName (items args) (cs! "na.rm") with
      | none => rw [hn] at hl; exact Or.inl (by simpa using hl)
      | some a => rw [hn] at hl; exact Or.inr ⟨hnr hn, by simpa using hl⟩) hx hm hfu
  have hC1 : ((items args).map core).filter (fun a => nameOf a = some (cs! "na.rm")) = ((items args).filter (fun a => argName a = some (cs! "na.rm"))).map core :=
    filter_core (p := fun o => decide (o = some (cs! "na.rm"))) hi
  have hC2 : ((items args).map core).filter (fun a => nameOf a ≠ some (cs! "na.rm")) = ((items args).filter (fun a => argName a ≠ some (cs! "na.rm"))).map core :=
    filter_core (p := fun o => decide (o ≠ some (cs! "na.rm"))) hi
  have hsum := filter_not_length (items args) (fun a => decide (argName a = some (cs! "na.rm")))
  simp only [← decide_not] at hsum
  change _ + ((items args).filter (fun a => argName a ≠ some (cs! "na.rm"))).length = _ at hsum
  have hfs : ∀ {a}, argByName (items args) (cs! "na.rm") = some a → decide (argName a = some (cs! "na.rm")) = true := fun {a} h =>
    List.find?_some (p := fun a => decide (argName a = some (cs! "na.rm"))) h
  have hpos : ∀ {a}, argByName (items args) (cs! "na.rm") = some a → 1 ≤ ((items args).filter (fun a => argName a = some (cs! "na.rm"))).length := fun h =>
    List.length_pos_of_mem (List.mem_filter.mpr ⟨argByName_mem h, hfs h⟩)
  have hle : ((items args).filter (fun a => argName a ≠ some (cs! "na.rm"))).length ≤ 3 := by
    cases hn : argByName (items args) (cs! "na.rm") with
    | none => simp [hn] at hl; omega
    | some a => have := hpos hn; simp [hn] at hl; omega
  obtain ⟨-, -, -, h3, -⟩ := match_three (as := (items args).filter (fun a => argName a ≠ some (cs! "na.rm"))) (fun a ha => hi a (List.mem_filter.mp ha).1)
    (x := cs! "X") (y := cs! "MARGIN") (w := cs! "FUN") (a := x) (b := m) (c := fu) (by decide) (by decide) (by decide) [] (by decide) (Or.inl hle)
    (by rw [valueBy_filter (by decide)]; exact hx) (by rw [valueBy_filter (by decide)]; exact hm) (by rw [valueBy_filter (by decide)]; exact hfu)
  have hle1 : ((items args).filter (fun a => argName a = some (cs! "na.rm"))).length ≤ 1 := by
    cases hn : argByName (items args) (cs! "na.rm") with
    | none => simp [hn] at hl; omega
    | some a => simp [hn] at hl; omega
  have hxo := valueBy_ok hi hx
  rw [show core (fixAt z _).z.e = _ from asCall_core hw h1]
  -- the new call
  have hnew : ∀ name, Placed ⟨z, callText name (match argByName (items args) (cs! "na.rm") with
      | some a => trimmed x ++ tk .comma :: trimmed a
      | none => trimmed x), containsComments z⟩ e' →
      core e' = fn name (core x :: ((items args).map core).filter (fun a => nameOf a = some (cs! "na.rm"))) := by
    intro name hpl
    rw [hC1]
    cases hn : argByName (items args) (cs! "na.rm") with
    | none =>
      rw [hn] at hpl
      rw [(ClosedCore.callText hxo.core).placed hpl, List.filter_eq_nil_iff.mpr fun a ha => by have := List.find?_eq_none.mp hn a ha; exact this]
      rfl
    | some a =>
      rw [hn] at hpl
      rw [(ClosedCore.callText (hxo.core.comma (hi a (argByName_mem hn)).core)).placed hpl,
        one_item (a := a) (by have := hpos hn; omega) (List.mem_filter.mpr ⟨argByName_mem hn, hfs hn⟩)]
      rfl
  have K : ∀ {ft mt new}, Text ft (core fu) → Text mt (core m) → ((ft, mt), new) ∈ marginFn → core e' = fn new (core x :: ((items args).map core).filter (fun a => nameOf a = some (cs! "na.rm"))) →
      Law (cs! "matrix_apply") (callOf (core f) ((items args).map core)) (core e') := by
    intro ft mt new t1 t2 t3 t4
    rw [t4]
    exact .matrix_apply (fn_core (guard_some hf) (by decide)) (isArg_map hi) (by rw [hC2]; simp only [List.length_map]; omega) (by rw [hC1]; simpa using hle1) m1 m2 t2 m3 t1 t3
  have hrow : (textIs (cs! "1") m || textIs (cs! "1L") m) = true → ∃ mt, Text mt (core m) ∧ (mt = cs! "1" ∨ mt = cs! "1L") := by
    intro h; simp only [Bool.or_eq_true] at h
    rcases h with h | h
    · exact ⟨_, textIs_core h, Or.inl rfl⟩
    · exact ⟨_, textIs_core h, Or.inr rfl⟩
  have hcol : (textIs (cs! "1") m || textIs (cs! "1L") m) = false → ∃ mt, Text mt (core m) ∧ (mt = cs! "2" ∨ mt = cs! "2L") := by
    intro h; simp only [h, Bool.false_or, Bool.or_eq_true] at hmt
    rcases hmt with h | h
    · exact ⟨_, textIs_core h, Or.inl rfl⟩
    · exact ⟨_, textIs_core h, Or.inr rfl⟩
  cases hmean : textIs (cs! "mean") fu <;> cases hr : (textIs (cs! "1") m || textIs (cs! "1L") m)
  · have hs : Text (cs! "sum") (core fu) := textIs_core (by simpa [hmean] using hft)
    obtain ⟨mt, ht, hm⟩ := hcol hr
    refine K hs ht (new := cs! "colSums") ?_ (hnew _ ?_)
    · rcases hm with rfl | rfl <;> decide
    · simp only [hmean, hr, fixAt] at hpl
      exact hpl
  · have hs : Text (cs! "sum") (core fu) := textIs_core (by simpa [hmean] using hft)
    obtain ⟨mt, ht, hm⟩ := hrow hr
    refine K hs ht (new := cs! "rowSums") ?_ (hnew _ ?_)
    · rcases hm with rfl | rfl <;> decide
    · simp only [hmean, hr, fixAt] at hpl
      exact hpl
  · obtain ⟨mt, ht, hm⟩ := hcol hr
    refine K (textIs_core hmean) ht (new := cs! "colMeans") ?_ (hnew _ ?_)
    · rcases hm with rfl | rfl <;> decide
    · simp only [hmean, hr, fixAt] at hpl
      exact hpl
  · obtain ⟨mt, ht, hm⟩ := hrow hr
    refine K (textIs_core hmean) ht (new := cs! "rowMeans") ?_ (hnew _ ?_)
    · rcases hm with rfl | rfl <;> decide
    · simp only [hmean, hr, fixAt] at hpl
      exact hpl

end Jarl
