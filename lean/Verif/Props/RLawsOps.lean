import Verif.Props.RLawsMore
/-!
# C52: what the rules put in is what they document, rules on operators
-/
namespace Jarl
open Spec

/-- The same text is the same code. -/
theorem sameText_gap {a b} (ha : isExpr a = true) (hb : isExpr b = true) (wa : WF .free a) (wb : WF .free b) (h : sameText a b = true) : setGap .none a = setGap .none b := by
  simp only [sameText, decide_eq_true_eq] at h
  refine expr_unique (md := .free) (by rw [setGap_isExpr]; exact ha) (by rw [setGap_isExpr]; exact hb) (setGap_wf wa) (setGap_wf wb) ?_
  rw [setGap_toks (isArg_of_isExpr ha) wa, setGap_toks (isArg_of_isExpr hb) wb]; exact h

theorem sameText_core {a b} (ha : isExpr a = true) (hb : isExpr b = true) (wa : WF .free a) (wb : WF .free b) (h : sameText a b = true) : core a = core b := by
  rw [← core_setGap .none a, sameText_gap ha hb wa wb h, core_setGap]

theorem law_anyIsNa2 : Lawful (cs! "any_is_na") anyIsNa2 always := by
  intro ts p z ed e' hp hz h _ _ hc hpl
  have hw := at_place hp hz
  unrule anyIsNa2 h
  obtain ⟨l, o, r, hb, _, ho, _, hn, rfl⟩ := h
  have ho := guard_some ho
  subst ho
  have hn := guard_some hn
  simp only [Bool.and_eq_true] at hn
  rw [show core (fixAt z _).z.e = _ from asBin_core hb (by simp), (ClosedCore.callText (right_ok hw hb (by decide)).core).placed hpl]
  exact .any_is_na_in (isAtom_core hn.2)

/-- The shape of the old and the new code. -/
theorem equals_law {special name both ts p z ed e'} (hp : Parses ts p) (hz : z.prog = p) (h : equalsSpecial special name both z = some ed) (hpl : Placed ed e')
    (hin : both = true → ∀ l g o r, ed.z.e = .bin l g o r → o = .special (cs! "in") → special l = false) :
    ∃ l o r x s, (o = .eq2 ∨ o = .ne ∨ o = .special (cs! "in")) ∧ core ed.z.e = .bin (core l) .none o (core r) ∧ core e' = notIf (o = .ne) (fn name [core x]) ∧ special s = true ∧
      ((l = x ∧ r = s) ∨ (l = s ∧ r = x ∧ o ≠ .special (cs! "in"))) := by
  have hw := at_place hp hz
  unrule equalsSpecial h
  obtain ⟨l, o, r, hb, _, ho, _, hbw, _, hsp, rfl⟩ := h
  have ho := guard_some ho
  have hbw := guard_some hbw
  have hsp := guard_some hsp
  have ho' : o = .eq2 ∨ o = .ne ∨ o = .special (cs! "in") := by simpa using ho
  have hno : o ∉ [Op.pipe, .rassign, .superRassign] := by rcases ho' with rfl | rfl | rfl <;> simp
  have hl := left_ok hw hb (by rcases ho' with rfl | rfl | rfl <;> decide)
  have hr := right_ok hw hb (by rcases ho' with rfl | rfl | rfl <;> decide)
  have hx : ExprOk (if special l = true then r else l) := by
    split
    · exact hr
    · exact hl
  refine ⟨l, o, r, if special l = true then r else l, if special l = true then l else r, ho', asBin_core hb hno, ?_, ?_, ?_⟩
  · rw [ite_decide] at hpl
    exact (ClosedCore.callText (name := name) hx.core).notIf hpl
  · cases hsl : special l <;> cases hsr : special r <;> simp [hsl, hsr] at hsp ⊢
  · cases hsl : special l
    · simp
    · right
      refine ⟨by simp, by simp, fun hin' => ?_⟩
      subst hin'
      simp only [hsl, decide_true, Bool.and_self, Bool.not_true, Bool.or_false] at hbw
      obtain ⟨g, he⟩ := asBin_eq hb
      have := hin hbw l g _ r he rfl
      rw [hsl] at this; cases this

theorem law_equalsNa : Lawful (cs! "equals_na") equalsNa always := by
  intro ts p z ed e' hp hz h _ _ _ hpl
  obtain ⟨l, o, r, x, s, ho, h1, h2, h3, h4⟩ := equals_law hp hz h hpl (fun h => by cases h)
  rw [h1, h2]
  obtain ⟨t, ht, h3⟩ := List.any_eq_true.mp h3
  refine .equals_na (x := core x) (s := core s) ?_ ⟨t, ht, textIs_core h3⟩ ho
  rcases h4 with ⟨rfl, rfl⟩ | ⟨rfl, rfl, h⟩
  · exact Or.inl ⟨rfl, rfl⟩
  · exact Or.inr ⟨rfl, rfl, h⟩

theorem law_equalsNan : Lawful (cs! "equals_nan") equalsNan always := by
  intro ts p z ed e' hp hz h _ _ _ hpl
  obtain ⟨l, o, r, x, s, ho, h1, h2, h3, h4⟩ := equals_law hp hz h hpl (fun h => by cases h)
  rw [h1, h2]
  refine .equals_nan (x := core x) (s := core s) ?_ (isAtom_core h3) ho
  rcases h4 with ⟨rfl, rfl⟩ | ⟨rfl, rfl, h⟩
  · exact Or.inl ⟨rfl, rfl⟩
  · exact Or.inr ⟨rfl, rfl, h⟩

theorem law_equalsNull : Lawful (cs! "equals_null") equalsNull notNullIn := by
  intro ts p z ed e' hp hz h _ _ hc hpl
  obtain ⟨l, o, r, x, s, ho, h1, h2, h3, h4⟩ := equals_law hp hz h hpl (fun _ => hc)
  rw [h1, h2]
  refine .equals_null (x := core x) (s := core s) ?_ (isAtom_core h3) ho
  rcases h4 with ⟨rfl, rfl⟩ | ⟨rfl, rfl, h⟩
  · exact Or.inl ⟨rfl, rfl⟩
  · exact Or.inr ⟨rfl, rfl, h⟩

theorem law_isNumeric : Lawful (cs! "is_numeric") isNumeric always := by
  intro ts p z ed e' hp hz h _ _ _ hpl
  have hw := at_place hp hz
  unrule isNumeric h
  obtain ⟨l, o, r, hb, _, ho, fl, al, h1, fr, ar, h2, _, hn, _, ht, rfl⟩ := h
  have ho := guard_some ho
  subst ho
  have hl := left_ok hw hb (by decide)
  have hr := right_ok hw hb (by decide)
  have hn := guard_some hn
  have ht := guard_some ht
  obtain ⟨as', ha, hs⟩ := asCall_raw hl.wf h1
  have hsame : ∀ f, callOf f ((items ar).map core) = callOf f ((items al).map core) := by
    obtain ⟨a1, a2, a3⟩ := asCall_ok hl.wf h1
    obtain ⟨b1, b2, b3⟩ := asCall_ok hr.wf h2
    have key : ∀ {as}, isArgs as = true → WF .free as → argBp ≤ lp as → isExpr (.call (sym []) .none .par as .none) = true ∧ WF .free (.call (sym []) .none .par as .none) :=
      fun x y w => ⟨rfl, rfl, trivial, Or.inr rfl, show postfixBp < topBp by decide, x, y, w⟩
    obtain ⟨k1, k2⟩ := key a1 a2 a3
    obtain ⟨k3, k4⟩ := key b1 b2 b3
    have := expr_unique k1 k3 k2 k4 (by simp only [toks, ht])
    injection this with _ _ _ h _
    rw [h]; intro _; rfl
  rw [show core (fixAt z _).z.e = _ from asBin_core hb (by simp), asCall_core hl.wf h1, asCall_core hr.wf h2, (ClosedCore.callText ha).placed hpl, fn, hs, hsame]
  refine .is_numeric ?_
  simp only [Bool.or_eq_true, Bool.and_eq_true] at hn
  rcases hn with h | h
  · exact Or.inr ⟨textIs_core h.1, textIs_core h.2⟩
  · exact Or.inl ⟨textIs_core h.1, textIs_core h.2⟩

theorem law_redundantEquals : Lawful (cs! "redundant_equals") redundantEquals always := by
  intro ts p z ed e' hp hz h _ _ _ hpl
  have hw := at_place hp hz
  unrule redundantEquals h
  obtain ⟨l, o, r, hb, _, ho, keep, other, hk, rfl⟩ := h
  have ho := guard_some ho
  have hlv : level o = 10 := by rcases ho with rfl | rfl <;> rfl
  obtain ⟨b1, b2, b3⟩ := cmp_bp hlv
  have hno : o ∉ [Op.pipe, .rassign, .superRassign] := by rcases ho with rfl | rfl <;> simp
  have hl : ExprOk l ∧ 18 ≤ lp l := ⟨left_ok hw hb (by rw [b1]; decide), by
    obtain ⟨g, he⟩ := asBin_eq hb
    rw [he] at hw
    have := rp_lp hw.1 hw.2.2.1 20 (by decide) (by decide) (by have := hw.2.2.2.2.2.2.1; omega)
    omega⟩
  have hr : ExprOk r ∧ 18 ≤ lp r := ⟨right_ok hw hb (by rw [b2]; decide), by
    obtain ⟨g, he⟩ := asBin_eq hb
    rw [he] at hw
    have := hw.2.2.2.2.2.2.2
    omega⟩
  have new : ∀ {x}, (ExprOk x ∧ 18 ≤ lp x) → Placed (fixAt z (if keep = true then trimmed x else tk (.op .bang) :: trimmed x)) e' → core e' = notIf (!keep) (core x) := by
    intro x ⟨hx, hx2⟩ hpl
    cases keep with
    | true =>
      have := placed_core (n := setGap .none x) hpl (by rw [setGap_isExpr]; exact hx.expr) (setGap_wf hx.wf) (trimmed_toks hx)
      rw [core_setGap] at this
      simpa [notIf] using this
    | false =>
      have := placed_core (n := .un .none .bang (setGap .none x)) hpl rfl ⟨by rw [setGap_isExpr]; exact hx.expr, setGap_wf hx.wf, 9, rfl, by rw [setGap_lp]; exact hx2⟩
        (by simp only [toks, trimmed_toks hx]; rfl)
      simp only [core, core_setGap] at this
      simpa [notIf] using this
  rw [show core (fixAt z _).z.e = _ from asBin_core hb hno]
  have law : ∀ {x c : Node} {b : Bool}, (core l = core x ∧ core r = core c) ∨ (core l = core c ∧ core r = core x) → Const (if b then .true else .false) (core c) →
      keep = (if b then decide (o = .eq2) else decide (o = .ne)) →
      Law (cs! "redundant_equals") (.bin (core l) .none o (core r)) (notIf (!keep) (core x)) := by
    intro x c b h1 h2 h3
    have := Law.redundant_equals (o := o) h1 h2 ho
    rw [h3]
    cases b <;> rcases ho with rfl | rfl <;> exact this
  revert hk
  split
  · next ht => intro hk; cases hk; rw [new hr hpl]; exact law (c := l) (b := true) (Or.inr ⟨rfl, rfl⟩) (isAtom_core ht) rfl
  · split
    · next ht => intro hk; cases hk; rw [new hl hpl]; exact law (c := r) (b := true) (Or.inl ⟨rfl, rfl⟩) (isAtom_core ht) rfl
    · split
      · next ht => intro hk; cases hk; rw [new hr hpl]; exact law (c := l) (b := false) (Or.inr ⟨rfl, rfl⟩) (isAtom_core ht) rfl
      · split
        · next ht => intro hk; cases hk; rw [new hl hpl]; exact law (c := r) (b := false) (Or.inl ⟨rfl, rfl⟩) (isAtom_core ht) rfl
        · intro hk; cases hk

theorem law_comparisonNegation : Lawful (cs! "comparison_negation") comparisonNegation always := by
  intro ts p z ed e' hp hz h _ _ _ hpl
  have hw := at_place hp hz
  unrule comparisonNegation h
  obtain ⟨o, a, hu, _, ho, b, hpa, l, o2, r, hb, o3, hn, rfl⟩ := h
  have ho := guard_some ho
  subst ho
  obtain ⟨g, he⟩ := asUn_eq hu
  obtain ⟨g3, g4, rfl⟩ := asParen_eq hpa
  have hbw : WF .free b := by rw [he] at hw; exact hw.2.1.2
  have hop : Opposite o2 o3 ∧ level o2 = 10 ∧ level o3 = 10 ∧ Infix o3 = true ∧ o2 ∉ [Op.pipe, .rassign, .superRassign] ∧ o3 ∉ [Op.pipe, .rassign, .superRassign] := by
    revert hn; cases o2 <;> simp only [negateComparison, Option.some.injEq] <;> intro hn <;> first | (cases hn; done) | (subst hn; exact ⟨by constructor, by decide⟩)
  obtain ⟨hop, l2, l3, i3, n2, n3⟩ := hop
  obtain ⟨b1, b2, b3⟩ := cmp_bp l2
  obtain ⟨c1, c2, c3⟩ := cmp_bp l3
  have hl := left_ok hbw hb (by rw [b1]; decide)
  have hr := right_ok hbw hb (by rw [b2]; decide)
  have hcore : core z.e = .un .none .bang (.bin (core l) .none o2 (core r)) := by rw [he]; simp only [core]; rw [asBin_core hb n2]
  obtain ⟨g5, rfl⟩ := asBin_eq hb
  have h1 := hbw.2.2.2.2.2.2.1
  have h2 := hbw.2.2.2.2.2.2.2
  have := placed_core (n := .bin (setGap .none l) .none o3 (setGap .none r)) hpl rfl
    ⟨by rw [setGap_isExpr]; exact hl.expr, by rw [setGap_isExpr]; exact hr.expr, setGap_wf hl.wf, setGap_wf hr.wf, i3, Or.inr rfl, by rw [setGap_rp]; omega, by rw [setGap_lp]; omega⟩
    (by simp only [toks, trimmed_toks hl, trimmed_toks hr, fixAt]; rfl)
  rw [asBin_core (e := .bin (setGap .none l) .none o3 (setGap .none r)) rfl n3, core_setGap, core_setGap] at this
  rw [show core (fixAt z _).z.e = _ from hcore, this]
  exact .comparison_negation hop

theorem law_assignment (want : Op) (hwant : want = .assign ∨ want = .eq) :
    Lawful (if want = .assign then cs! "assignment <-" else cs! "assignment =") (assignment want) plainSides := by
  intro ts p z ed e' hp hz h _ _ hc hpl
  have hw := at_place hp hz
  unfold assignment at h
  simp only [Option.bind_eq_bind, Option.bind_eq_some_iff, Prod.exists] at h
  obtain ⟨l, o, r, hb, h⟩ := h
  obtain ⟨g, he⟩ := asBin_eq hb
  have hwb : lbp want ≤ 8 ∧ 6 ≤ lbp want ∧ rbp want = lbp want ∧ Infix want = true ∧ want ∉ [Op.pipe, .rassign, .superRassign] := by rcases hwant with rfl | rfl <;> decide
  have key : ∀ {x y : Node}, isExpr x = true → WF (modeAt z.fs) x → isExpr y = true → WF (modeAt z.fs) y → lbp want < rp x → lbp want ≤ lp y →
      Placed ⟨z, trimmed x ++ tk (.op want) :: trimmed y, false⟩ e' → core e' = .bin (core x) .none want (core y) := by
    intro x y hx wx hy wy h1 h2 hpl
    have wx := WF_free (isArgs_of_isArg (isArg_of_isExpr hx)) wx
    have wy := WF_free (isArgs_of_isArg (isArg_of_isExpr hy)) wy
    have := placed_core (n := .bin (setGap .none x) .none want (setGap .none y)) hpl rfl
      ⟨by rw [setGap_isExpr]; exact hx, by rw [setGap_isExpr]; exact hy, setGap_wf wx, setGap_wf wy, hwb.2.2.2.1, Or.inr rfl, by rw [setGap_rp]; exact h1, by rw [setGap_lp, hwb.2.2.1]; exact h2⟩
      (by simp only [toks, setGap_toks (isArg_of_isExpr hx) wx, setGap_toks (isArg_of_isExpr hy) wy]; rfl)
    rw [asBin_core (e := .bin (setGap .none x) .none want (setGap .none y)) rfl hwb.2.2.2.2, core_setGap, core_setGap] at this
    exact this
  have law : ∀ {x y o}, o = .assign ∨ o = .eq → Law (if want = .assign then cs! "assignment <-" else cs! "assignment =") (.bin x .none o y) (.bin x .none want y) := by
    intro x y o ho
    rcases hwant with rfl | rfl
    · exact .assignment ho
    · exact .assignment_eq ho
  rw [he] at hw
  obtain ⟨w1, w2, w3, w4, _, _, w5, w6⟩ := hw
  by_cases ho : o = (if want = .assign then Op.eq else .assign)
  · rw [if_pos ho] at h
    cases h
    have ho' : o = .assign ∨ o = .eq := by rw [ho]; split <;> simp
    have hce : core z.e = .bin (core l) .none o (core r) := asBin_core hb (by rcases ho' with rfl | rfl <;> simp)
    rw [show core (Edit.mk z _ false).z.e = _ from hce, key w1 w3 w2 w4 ?_ ?_ hpl]
    · exact law ho'
    · rcases ho' with rfl | rfl
      · have : (8 : Nat) < rp l := w5; omega
      · have : (8 : Nat) < rp l := ((hc l g _ r he).1 rfl).1; omega
    · rcases ho' with rfl | rfl
      · have : (8 : Nat) ≤ lp r := w6; omega
      · have : (8 : Nat) ≤ lp r := ((hc l g _ r he).1 rfl).2; omega
  · rw [if_neg ho] at h
    split at h
    · next ho =>
      cases h
      subst ho
      have : (8 : Nat) < rp r := (hc l g _ r he).2 rfl
      have hll := rp_lp w1 w3 10 (by decide) (by decide) (show 10 < rp l from w5)
      rw [show core (Edit.mk z _ false).z.e = .bin (core r) .none .assign (core l) by simp only [he, core], key w2 w4 w1 w3 (by omega) (by omega) hpl]
      exact law (Or.inl rfl)
    · cases h

theorem law_numericLeadingZero : Lawful (cs! "numeric_leading_zero") numericLeadingZero always := by
  intro ts p z ed e' hp hz h _ _ _ hpl
  unfold numericLeadingZero at h
  split at h
  · next he => cases h; rw [(ClosedCore.atom _ _).placed hpl, he]; exact .numeric_leading_zero (Or.inl rfl)
  · next he => cases h; rw [(ClosedCore.atom _ _).placed hpl, he]; exact .numeric_leading_zero (Or.inr rfl)
  · cases h

theorem law_trueFalseSymbol : Lawful (cs! "true_false_symbol") trueFalseSymbol always := by
  intro ts p z ed e' hp hz h _ _ _ hpl
  unrule trueFalseSymbol h
  obtain ⟨k, new, hk, _, _, rfl⟩ := h
  rw [(ClosedCore.atom _ _).placed hpl]
  have key : ∀ {s}, (isAtom .id z.e && textIs s z.e) = true → core z.e = sym s := by
    intro s h
    revert h
    cases z.e <;> simp [isAtom, textIs]
    next k s' => rintro rfl; simp only [decide_eq_true_eq]; rintro rfl; rfl
  revert hk
  split
  · next h => intro hk; cases hk; rw [show core (Edit.mk z _ false).z.e = _ from key h]; exact .true_symbol
  · split
    · next h => intro hk; cases hk; rw [show core (Edit.mk z _ false).z.e = _ from key h]; exact .false_symbol
    · intro hk; cases hk

end Jarl
