import Verif.Props.RFix
/-!
# C51: fixes that put an operator in place of another
-/
namespace Jarl
open Spec

/-- `!` in front of a closed expression. -/
def BangText (c : List Tok) : Prop := ∃ d, c = tk (.op .bang) :: d ∧ ClosedText d

/-- No operator is between `!` and the comparisons. -/
theorem no_op_between {o : Op} (ho : Infix o = true) (h : lbp o < 20) : lbp o < 18 := by
  revert ho h; cases o <;> simp [Infix, lbp, level]

theorem bin_rp_le {l g o r} : rp (.bin l g o r) ≤ follow o := by simp only [rp]; omega

/-- `!f(x)` in place of `a == b`. -/
theorem BangText.good {z : Zip} {c} {p : Node} {ts s l o r} (h : BangText c) (hp : Parses ts p) (hz : z.prog = p)
    (hb : asBin z.e = some (l, o, r)) (ho : follow o = 20) : GoodFix p ⟨z, c, s⟩ := by
  obtain ⟨d, rfl, n, h1, h2, h3, h4, h5, h6⟩ := h
  obtain ⟨g, he⟩ := asBin_eq hb
  have hr : rp z.e ≤ 20 := by rw [he, ← ho]; exact bin_rp_le
  refine ⟨hz, by rw [he]; rfl, keeps_of (e0 := .un .none .bang n) hp hz (by rw [he]; rfl) rfl (by simp [toks, tk, h6]) ?_ ?_ ?_ ?_ ?_⟩
  · exact ⟨h1, h2 _, 9, rfl, Nat.le_trans (by decide) h3⟩
  · intro o' ho' hl
    have := no_op_between ho' (Nat.lt_of_lt_of_le hl hr)
    simp only [rp, h4, unLevel, Option.getD]; unfold topBp; omega
  · intro hl; unfold postfixBp at hl; omega
  · intro _; exact h5
  · exact Nat.le_trans (placeStrength_lt _) (show postfixBp ≤ topBp by decide)

theorem good_bang_or_not {z : Zip} {c} {p : Node} {ts s l o r} {b : Bool} (h : ClosedText c) (hp : Parses ts p) (hz : z.prog = p)
    (hb : asBin z.e = some (l, o, r)) (ho : b = true → follow o = 20) :
    GoodFix p ⟨z, if b = true then tk (.op .bang) :: c else c, s⟩ := by
  split
  · next hb' => exact BangText.good ⟨c, rfl, h⟩ hp hz hb (ho hb')
  · exact h.good hp hz (asBin_expr hb) _

theorem safe_equalsSpecial (special name both) : SafeRule (equalsSpecial special name both) := by
  intro ts p z ed hp hz h _
  have hw := at_place hp hz
  unrule equalsSpecial h
  obtain ⟨l, o, r, h1, _, ho, _, _, _, _, rfl⟩ := h
  have ho := guard_some ho
  have hl : argBp ≤ lbp o ∧ argBp ≤ rbp o := by
    rcases ho with rfl | rfl | ho
    · decide
    · decide
    · rw [of_decide_eq_true ho]; decide
  have hc : ClosedText (callText name (trimmed (if special l then r else l))) := by
    refine ClosedText.callText (ExprOk.text ?_)
    split
    · exact right_ok hw h1 hl.2
    · exact left_ok hw h1 hl.1
  have := good_bang_or_not (b := decide (o = .ne)) (s := containsComments z) hc hp hz h1 (fun h => by rw [of_decide_eq_true h]; rfl)
  simpa [fixAt] using this

theorem safe_equalsNa : SafeRule equalsNa := safe_equalsSpecial _ _ _
theorem safe_equalsNan : SafeRule equalsNan := safe_equalsSpecial _ _ _
theorem safe_equalsNull : SafeRule equalsNull := safe_equalsSpecial _ _ _

theorem safe_classEquals : SafeRule classEquals := by
  intro ts p z ed hp hz h _
  have hw := at_place hp hz
  unrule classEquals h
  obtain ⟨l, o, r, h1, _, ho, _, _, c, s, hcs, rfl⟩ := h
  have ho := guard_some ho
  have hl : argBp ≤ lbp o ∧ argBp ≤ rbp o := by
    rcases ho with rfl | rfl | rfl <;> decide
  obtain ⟨hc, hs⟩ := classAndString_ok (left_ok hw h1 hl.1) (right_ok hw h1 hl.2) hcs
  have := good_bang_or_not (b := decide (o = .ne)) (s := containsComments z) (ClosedText.callText (name := cs! "inherits") (hc.comma hs)) hp hz h1 (fun h => by rw [of_decide_eq_true h]; rfl)
  simpa [fixAt] using this

theorem safe_stringBoundary : SafeRule stringBoundary := by
  intro ts p z ed hp hz h _
  have hw := at_place hp hz
  unrule stringBoundary h
  obtain ⟨l, o, r, h1, _, ho, c, s, hcs, f, args, h2, _, _, x, ⟨ax, hax, hx⟩, _, _, _, _, name, _, rfl⟩ := h
  have ho := guard_some ho
  have hl : argBp ≤ lbp o ∧ argBp ≤ rbp o := by
    rcases ho with rfl | rfl <;> decide
  have o1 := left_ok hw h1 hl.1
  have o2 := right_ok hw h1 hl.2
  have : ExprOk c ∧ ExprOk s := by
    revert hcs
    repeat' split
    all_goals (intro hc; first | (cases hc; done) | cases hc; first | exact ⟨o1, o2⟩ | exact ⟨o2, o1⟩)
  have hi := asCall_items this.1.wf h2
  have hc := (argValue_ok (hi _ (List.mem_of_getElem? hax)) hx).text.comma this.2.text
  have := good_bang_or_not (b := decide (o = .ne)) (s := containsComments z) (ClosedText.callText (name := name) hc) hp hz h1 (fun h => by rw [of_decide_eq_true h]; rfl)
  simpa [fixAt] using this

/-- A whole expression as an argument. -/
theorem ExprOk.of {e md} (he : isExpr e = true) (hw : WF md e) (hl : argBp ≤ Spec.lp e) : ExprOk e :=
  ⟨he, WF_free (isArgs_of_isArg (isArg_of_isExpr he)) hw, hl⟩

theorem call_lp {md e f args} (hw : WF md e) (h : asCall e = some (f, args)) : postfixBp ≤ lp e := by
  obtain ⟨g, g2, rfl⟩ := asCall_eq h
  have := rp_lp hw.1 hw.2.1 postfixBp (by decide) (Nat.le_refl _) hw.2.2.2.1
  simp only [lp]; omega

theorem safe_allEqualTrue : SafeRule allEqualTrue := by
  intro ts p z ed hp hz h _
  have hw := at_place hp hz
  unrule allEqualTrue h
  obtain ⟨_, _, f, args, h1, _, _, h⟩ := h
  have hx := asCall_expr h1
  have hc : ClosedText (callText (cs! "isTRUE") (trimmed z.e)) :=
    ClosedText.callText (ExprOk.of hx hw (Nat.le_trans (show argBp ≤ postfixBp by decide) (call_lp hw h1))).text
  obtain ⟨fs, e⟩ := z
  simp only at h
  split at h
  · cases h; exact hc.good hp hz hx _
  · cases h; exact hc.good hp hz hx _
  · cases h; exact hc.good hp hz hx _
  · next g o fs2 _ =>
    simp only [Option.bind_eq_some_iff, Option.some.injEq] at h
    obtain ⟨_, hu, rfl⟩ := h
    have hu := guard_some hu
    have ho : o = .bang := by
      revert hu
      unfold underBang
      split
      · intro h; cases h
      · next h => intro _; cases h; rfl
      · intro h; cases h
    subst ho
    obtain ⟨n, h1, h2, h3, h4, h5, h6⟩ := hc
    refine ⟨hz, rfl, keeps_of (e0 := .un .none .bang n) hp hz rfl rfl (by simp [toks, tk, h6]) ?_ ?_ ?_ ?_ ?_⟩
    · exact ⟨h1, h2 _, 9, rfl, Nat.le_trans (by decide) h3⟩
    · intro o' _ hl; simp only [rp, h4, unLevel, Option.getD] at hl ⊢; unfold topBp; omega
    · intro hl; simp only [rp, h4, unLevel, Option.getD] at hl ⊢; unfold topBp; omega
    · intro _; exact h5
    · exact Nat.le_trans (placeStrength_lt _) (show postfixBp ≤ topBp by decide)
  · cases h

theorem openIf_of_rp {e k} (h : bodyBp ≤ k) (hr : k < rp e) : openIf e = false := by
  cases ho : openIf e with
  | false => rfl
  | true => have := openIf_rp ho; omega

theorem trimmed_eq {e md} (he : isExpr e = true) (hw : WF md e) : toks (setGap .none e) = trimmed e :=
  setGap_toks (isArg_of_isExpr he) hw

/-- One side of a comparison in place of the comparison, perhaps with `!` in front. -/
theorem good_side {z : Zip} {p : Node} {ts s l o r x} {b : Bool} (hp : Parses ts p) (hz : z.prog = p) (hb : asBin z.e = some (l, o, r))
    (ho : level o = 10) (hx : x = l ∧ isAtom .true r = true ∨ x = l ∧ isAtom .false r = true ∨ x = r ∧ isAtom .true l = true ∨ x = r ∧ isAtom .false l = true) :
    GoodFix p ⟨z, if b = true then trimmed x else tk (.op .bang) :: trimmed x, s⟩ := by
  have hw := at_place hp hz
  obtain ⟨g, he⟩ := asBin_eq hb
  rw [he] at hw
  have hlb : lbp o = 20 := by unfold lbp; omega
  have hrb : rbp o = 21 := by revert ho; cases o <;> simp [level, rbp, rightAssoc]
  have hfo : follow o = 20 := by unfold follow nonAssoc; simp [ho]
  have hel : isExpr z.e = true := by rw [he]; rfl
  have hps := placeStrength_le (fs := z.fs) (e := z.e) (by subst hz; exact hp.2.1)
  have hrpr : bodyBp ≤ rp r := rp_ge hw.2.2.2.1
  have atom_lp : ∀ {k e}, isAtom k e = true → lp e = topBp ∧ rp e = topBp ∧ openIf e = false := by
    intro k e; cases e <;> simp [isAtom, lp, rp, openIf]
  -- what is known about the side
  have key : isExpr x = true ∧ WF (modeAt z.fs) x ∧ 20 ≤ lp x ∧ rp z.e ≤ rp x ∧ rp z.e ≤ 20 ∧ (openIf z.e = false → openIf x = false) ∧
      placeStrength z.fs ≤ lp x := by
    rw [he] at hps ⊢
    have left : ∀ k, isAtom k r = true → isExpr l = true ∧ WF (modeAt z.fs) l ∧ 20 ≤ lp l ∧ rp (.bin l g o r) ≤ rp l ∧ rp (.bin l g o r) ≤ 20 ∧ (openIf (.bin l g o r) = false → openIf l = false) ∧ placeStrength z.fs ≤ lp l := by
      intro k ha
      obtain ⟨a1, a2, a3⟩ := atom_lp ha
      have h20 := rp_lp hw.1 hw.2.2.1 20 (by decide) (by decide) (by have := hw.2.2.2.2.2.2.1; omega)
      have hlt := hw.2.2.2.2.2.2.1
      simp only [lp, rp, hlb, hfo, a2] at *
      exact ⟨hw.1, hw.2.2.1, h20, by omega, by omega, fun _ => openIf_of_rp (k := 20) (by decide) hlt, by omega⟩
    have right : ∀ k, isAtom k l = true → isExpr r = true ∧ WF (modeAt z.fs) r ∧ 20 ≤ lp r ∧ rp (.bin l g o r) ≤ rp r ∧ rp (.bin l g o r) ≤ 20 ∧ (openIf (.bin l g o r) = false → openIf r = false) ∧ placeStrength z.fs ≤ lp r := by
      intro k ha
      obtain ⟨a1, a2, a3⟩ := atom_lp ha
      have h21 := hw.2.2.2.2.2.2.2
      simp only [lp, rp, hlb, hfo, a1] at *
      exact ⟨hw.2.1, hw.2.2.2.1, by omega, by omega, by omega, id, by omega⟩
    rcases hx with ⟨rfl, h'⟩ | ⟨rfl, h'⟩ | ⟨rfl, h'⟩ | ⟨rfl, h'⟩
    · exact left _ h'
    · exact left _ h'
    · exact right _ h'
    · exact right _ h'
  obtain ⟨k1, k2, k3, k4, k5, k6, k7⟩ := key
  refine ⟨hz, hel, ?_⟩
  split
  · refine keeps_of (e0 := setGap .none x) hp hz hel (by rw [setGap_isExpr]; exact k1) (trimmed_eq k1 k2) (setGap_wf k2) ?_ ?_ ?_ ?_
    · intro o' _ hl; rw [setGap_rp]; omega
    · intro hl; rw [setGap_rp]; omega
    · rw [setGap_openIf]; exact k6
    · rw [setGap_lp]; exact k7
  · refine keeps_of (e0 := .un .none .bang (setGap .none x)) hp hz hel rfl (by simp [toks, tk, trimmed_eq k1 k2]) ?_ ?_ ?_ ?_ ?_
    · exact ⟨by rw [setGap_isExpr]; exact k1, setGap_wf k2, 9, rfl, by rw [setGap_lp]; omega⟩
    · intro o' ho' hl
      have := no_op_between ho' (Nat.lt_of_lt_of_le hl k5)
      simp only [rp, setGap_rp, unLevel, Option.getD]; omega
    · intro hl; unfold postfixBp at hl; omega
    · intro h; simp only [openIf, setGap_openIf]; exact k6 h
    · exact Nat.le_trans (placeStrength_lt _) (show postfixBp ≤ topBp by decide)

theorem safe_redundantEquals : SafeRule redundantEquals := by
  intro ts p z ed hp hz h _
  unrule redundantEquals h
  obtain ⟨l, o, r, h1, _, ho, keep, other, hc, rfl⟩ := h
  have ho := guard_some ho
  have hl : level o = 10 := by rcases ho with rfl | rfl <;> rfl
  have hx : other = l ∧ isAtom .true r = true ∨ other = l ∧ isAtom .false r = true ∨ other = r ∧ isAtom .true l = true ∨ other = r ∧ isAtom .false l = true := by
    revert hc
    repeat' split
    all_goals (intro hc; first | (cases hc; done) | cases hc; simp_all)
  exact good_side hp hz h1 hl hx
end Jarl
