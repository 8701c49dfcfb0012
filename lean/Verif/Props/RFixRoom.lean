import Verif.Props.RFixOps
/-!
# C51: fixes that need room
-/
namespace Jarl
open Spec

/-- On one line, what is allowed in parentheses is allowed everywhere. -/
theorem WF_oneLine {e} : ∀ {md}, isExpr e = true → WF .free e → oneLine (toks e) → WF md e := by
  unfold oneLine
  have app : ∀ {a b : List Tok} {P : Tok → Prop}, (∀ t ∈ (a ++ b).tail, P t) → a ≠ [] → (∀ t ∈ a.tail, P t) ∧ (∀ t ∈ b, P t) := by
    intro a b P h ha
    cases a with
    | nil => exact absurd rfl ha
    | cons x xs => simp only [List.cons_append, List.tail_cons, List.mem_append] at h ⊢; exact ⟨fun t ht => h t (.inl ht), fun t ht => h t (.inr ht)⟩
  have sub : ∀ {a : List Tok} {P : Tok → Prop}, (∀ t ∈ a, P t) → ∀ t ∈ a.tail, P t := fun h t ht => h t (List.mem_of_mem_tail ht)
  induction e with
  | un g o e ih => intro md _ hw h; simp only [toks, List.tail_cons] at h; exact ⟨hw.1, ih hw.1 hw.2.1 (sub h), hw.2.2⟩
  | bin l g o r ihl ihr =>
    intro md _ hw h
    simp only [toks] at h
    obtain ⟨h1, h2⟩ := app h (expr_toks hw.1 hw.2.2.1)
    exact ⟨hw.1, hw.2.1, ihl hw.1 hw.2.2.1 h1, ihr hw.2.1 hw.2.2.2.1 (sub fun t ht => h2 t (List.mem_cons_of_mem _ ht)), hw.2.2.2.2.1,
      Or.inr (h2 _ List.mem_cons_self), hw.2.2.2.2.2.2⟩
  | ext l g a g2 k s ihl =>
    intro md _ hw h
    simp only [toks] at h
    obtain ⟨h1, h2⟩ := app h (expr_toks hw.1 hw.2.1)
    exact ⟨hw.1, ihl hw.1 hw.2.1 h1, Or.inr (h2 _ List.mem_cons_self), hw.2.2.2⟩
  | call f g b args g2 ihf _ =>
    intro md _ hw h
    simp only [toks, List.append_assoc] at h
    obtain ⟨h1, h2⟩ := app h (expr_toks hw.1 hw.2.1)
    exact ⟨hw.1, ihf hw.1 hw.2.1 h1, Or.inr (h2 _ List.mem_cons_self), hw.2.2.2⟩
  | func g la g2 ps g3 b _ ihb =>
    intro md _ hw h; simp only [toks, List.tail_cons, List.cons_append] at h
    exact ⟨hw.1, hw.2.1, hw.2.2.1, hw.2.2.2.1, ihb hw.2.2.2.1 hw.2.2.2.2.1 (sub fun t ht => h t (by simp [ht])), hw.2.2.2.2.2⟩
  | ifE g g2 c g3 t _ iht =>
    intro md _ hw h; simp only [toks, List.tail_cons, List.cons_append] at h
    exact ⟨hw.1, hw.2.1, hw.2.2.1, hw.2.2.2.1, iht hw.2.2.2.1 hw.2.2.2.2.1 (sub fun t ht => h t (by simp [ht])), hw.2.2.2.2.2⟩
  | ifElse g g2 c g3 t g4 e _ iht ihe =>
    intro md _ hw h
    simp only [toks, List.tail_cons, List.cons_append] at h
    obtain ⟨a, b, c, d, e1, f, g, h', i, j, k⟩ := hw
    exact ⟨a, b, c, d, iht d e1 (sub fun t ht => h t (by simp [ht])), f, g, Or.inr (h ⟨g4, .else⟩ (by simp)), i, ihe i j (sub fun t ht => h t (by simp [ht])), k⟩
  | whileE g g2 c g3 t _ iht =>
    intro md _ hw h; simp only [toks, List.tail_cons, List.cons_append] at h
    exact ⟨hw.1, hw.2.1, hw.2.2.1, hw.2.2.2.1, iht hw.2.2.2.1 hw.2.2.2.2.1 (sub fun t ht => h t (by simp [ht])), hw.2.2.2.2.2⟩
  | forE g g2 gv v gi c g3 t _ iht =>
    intro md _ hw h; simp only [toks, List.tail_cons, List.cons_append] at h
    exact ⟨hw.1, hw.2.1, hw.2.2.1, hw.2.2.2.1, iht hw.2.2.2.1 hw.2.2.2.2.1 (sub fun t ht => h t (by simp [ht])), hw.2.2.2.2.2⟩
  | repE g t iht =>
    intro md _ hw h; simp only [toks, List.tail_cons] at h
    exact ⟨hw.1, iht hw.1 hw.2.1 (sub h), hw.2.2⟩
  | atom => intro md _ hw _; exact hw
  | paren => intro md _ hw _; exact hw
  | braces => intro md _ hw _; exact hw
  | _ => intro md he; cases he

/-- The common part of the proofs. -/
theorem good_room {z : Zip} {c s e} {p : Node} {ts} (hp : Parses ts p) (hz : z.prog = p) (he : isExpr z.e = true) (h : Reads (modeAt z.fs) c e) :
    ∃ e, Reads (modeAt z.fs) c e ∧ (room z.fs (min (lp e) (rp e)) → GoodFix p ⟨z, c, s⟩) :=
  ⟨e, h, fun hr => ⟨hz, he, keeps_room hp hz he h.1 h.2.2 h.2.1 hr (by omega) (by omega)⟩⟩

theorem ClosedText.bang {c} (h : ClosedText c) (md) : ∃ e, Reads md (tk (.op .bang) :: c) e := by
  obtain ⟨n, h1, h2, h3, h4, h5, h6⟩ := h
  exact ⟨.un .none .bang n, rfl, ⟨h1, h2 _, 9, rfl, Nat.le_trans (by decide) h3⟩, by simp [toks, tk, h6]⟩

theorem room_anyDuplicated : RoomRule' anyDuplicated := by
  intro ts p z ed hp hz h _
  unrule anyDuplicated h
  obtain ⟨c, t, h, rfl⟩ := h
  obtain ⟨h1, h2, h3⟩ := nested_ok hp hz h
  obtain ⟨n, n1, n2, n3, n4, n5, n6⟩ := ClosedText.callText (name := cs! "anyDuplicated") h1
  refine good_room (e := .bin n .none .gt (.atom .none .double (cs! "0"))) hp h2 h3 ⟨rfl, ?_, by simp only [toks, n6, fixAt]; rfl⟩
  exact ⟨n1, rfl, n2 _, trivial, rfl, Or.inr rfl, by rw [n4]; decide, show rbp .gt ≤ topBp by decide⟩

theorem room_outerNegation : RoomRule' outerNegation := by
  intro ts p z ed hp hz h _
  have hw := at_place hp hz
  unrule outerNegation h
  obtain ⟨_, _, f, args, h1, new, _, a, ha, _, _, v, hv, o, e, h2, _, _, rfl⟩ := h
  have hv' := argValue_ok (asCall_items hw h1 a (List.mem_of_getElem? ha)) hv
  obtain ⟨g, rfl⟩ := asUn_eq h2
  have hve := hv'.wf
  obtain ⟨e1, e2, k, hk, e3⟩ := hve
  have hk6 : 6 ≤ k := by revert hk; cases o <;> simp [unLevel] <;> omega
  have := (ClosedText.callText (name := new) (ExprOk.text ⟨e1, e2, by unfold argBp; omega⟩)).bang (modeAt z.fs)
  obtain ⟨e', he'⟩ := this
  exact good_room hp hz (asCall_expr h1) he'

theorem room_allEqualFalse : RoomRule' allEqualFalse := by
  intro ts p z ed hp hz h _
  unrule allEqualFalse h
  obtain ⟨c, t, h, rfl⟩ := h
  obtain ⟨h1, h2, h3⟩ := nested_ok hp hz h
  obtain ⟨e', he'⟩ := (ClosedText.callText (name := cs! "isTRUE") (ClosedText.callText (name := cs! "all.equal") h1).args).bang (modeAt t.fs)
  exact good_room hp h2 h3 he'
theorem argList_toks {n a} (h : a ∈ argList n) : ∀ t ∈ toks a, t ∈ toks n := by
  induction n with
  | comma x g r _ ihr =>
    intro t ht
    simp only [argList, List.mem_cons] at h
    simp only [toks, List.mem_append, List.mem_cons]
    rcases h with rfl | h
    · exact .inl ht
    · exact .inr (.inr (ihr h t ht))
  | _ => simp only [argList, List.mem_singleton] at h; subst h; exact fun t ht => ht

theorem items_toks {n a} (h : a ∈ items n) : ∀ t ∈ toks a, t ∈ toks n := by
  unfold items at h
  split at h
  · cases h
  · exact argList_toks h

theorem argValue_toks {a v} (h : argValue a = some v) : ∀ t ∈ toks v, t ∈ toks a := by
  intro t ht
  cases a <;> try (simp only [argValue, Option.some.injEq] at h; subst h; exact ht)
  case hole => simp [argValue] at h
  case named g k s g2 e =>
    have : v = e := by revert h; cases e <;> simp [argValue] <;> exact fun h => h.symm
    subst this
    simp [toks, ht]

theorem asBin_toks {e l o r} (h : asBin e = some (l, o, r)) : (∀ t ∈ toks l, t ∈ toks e) ∧ (∀ t ∈ toks r, t ∈ toks e) := by
  obtain ⟨g, rfl⟩ := asBin_eq h
  exact ⟨fun t ht => by simp [toks, ht], fun t ht => by simp [toks, ht]⟩

/-- The arguments of a call come behind its first token. -/
theorem asCall_toks {md e f args} (hw : WF md e) (h : asCall e = some (f, args)) : ∀ t ∈ toks args, t ∈ (toks e).tail := by
  obtain ⟨g, g2, rfl⟩ := asCall_eq h
  intro t ht
  obtain ⟨x, xs, hx⟩ := List.exists_cons_of_ne_nil (expr_toks hw.1 hw.2.1)
  simp [toks, hx, ht]

/-- A piece of code that is on one line or in parentheses, put where the whole was. -/
theorem piece_wf {md e x h} (hm : md = .free ∨ oneLine (toks e)) (hx : isExpr x = true) (hw : WF .free x)
    (ht : ∀ t ∈ toks x, t ∈ (toks e).tail) : WF md (setGap h x) := by
  apply setGap_wf
  rcases hm with rfl | ho
  · exact hw
  · exact WF_oneLine hx hw fun t h => ho t (ht t (List.mem_of_mem_tail h))

theorem room_lengthTest : RoomRule lengthTest := by
  intro ts p z ed hp hz h _ hm
  have hw := at_place hp hz
  unrule lengthTest h
  obtain ⟨f, args, h1, _, _, a, ha, v, hv, l, o, r, h2, _, ho, rfl⟩ := h
  have ho := guard_some ho
  have hv' := argValue_ok (asCall_items hw h1 a (head?_mem ha)) hv
  have hlv : level o = 10 := by revert ho; cases o <;> simp [isComparison, level]
  have hl := left_ok hv'.wf h2 (by unfold argBp lbp; omega)
  have hr := right_ok hv'.wf h2 (by unfold argBp rbp; split <;> omega)
  obtain ⟨g, rfl⟩ := asBin_eq h2
  have hwv := hv'.wf
  obtain ⟨n, n1, n2, n3, n4, n5, n6⟩ := ClosedText.callText (name := cs! "length") hl.text
  have hrt : WF (modeAt z.fs) (setGap .none r) := piece_wf hm hwv.2.1 hwv.2.2.2.1 fun t ht =>
    asCall_toks hw h1 _ (items_toks (head?_mem ha) _ (argValue_toks hv _ ((asBin_toks h2).2 _ ht)))
  refine good_room (e := .bin n .none o (setGap .none r)) hp hz (asCall_expr h1) ⟨rfl, ?_, ?_⟩
  · exact ⟨n1, by rw [setGap_isExpr]; exact hwv.2.1, n2 _, hrt, hwv.2.2.2.2.1, Or.inr rfl, by rw [n4]; have := lbp_le o; unfold topBp; omega,
      by rw [setGap_lp]; exact hwv.2.2.2.2.2.2.2⟩
  · simp only [toks, n6, trimmed_eq hwv.2.1 hwv.2.2.2.1, fixAt]; rfl

theorem negate_level {o o'} (h : negateComparison o = some o') : level o = 10 ∧ level o' = 10 ∧ Infix o' = true := by
  cases o <;> simp [negateComparison] at h <;> subst h <;> simp [level, Infix]

theorem cmp_bp {o} (h : level o = 10) : lbp o = 20 ∧ rbp o = 21 ∧ follow o = 20 := by
  revert h; cases o <;> simp [level, lbp, rbp, rightAssoc, follow, nonAssoc]

theorem room_comparisonNegation : RoomRule comparisonNegation := by
  intro ts p z ed hp hz h _ hm
  have hw := at_place hp hz
  unrule comparisonNegation h
  obtain ⟨o, a, h1, _, ho, b, h2, l, o2, r, h3, o3, h4, rfl⟩ := h
  obtain ⟨l2, l3, hinf⟩ := negate_level h4
  obtain ⟨b2, b2', _⟩ := cmp_bp l2
  obtain ⟨b3, b3', _⟩ := cmp_bp l3
  obtain ⟨g, he⟩ := asUn_eq h1
  obtain ⟨g1, g2, rfl⟩ := asParen_eq h2
  obtain ⟨g3, rfl⟩ := asBin_eq h3
  rw [he] at hw
  have hwb := hw.2.1.2
  have sub : ∀ t ∈ toks (.bin l g3 o2 r), t ∈ (toks z.e).tail := by intro t ht; rw [he]; simp only [toks, List.tail_cons]; simp only [toks] at ht; simp only [List.mem_cons, List.mem_append] at ht ⊢; exact .inl (.inr ht)
  have hl := piece_wf (h := .none) hm hwb.1 hwb.2.2.1 fun t ht => sub t ((asBin_toks h3).1 t ht)
  have hr := piece_wf (h := .none) hm hwb.2.1 hwb.2.2.2.1 fun t ht => sub t ((asBin_toks h3).2 t ht)
  have hx : isExpr z.e = true := by rw [he]; rfl
  refine good_room (e := .bin (setGap .none l) .none o3 (setGap .none r)) hp hz hx ⟨rfl, ?_, ?_⟩
  · exact ⟨by rw [setGap_isExpr]; exact hwb.1, by rw [setGap_isExpr]; exact hwb.2.1, hl, hr, hinf, Or.inr rfl,
      by rw [setGap_rp]; have := hwb.2.2.2.2.2.2.1; omega, by rw [setGap_lp]; have := hwb.2.2.2.2.2.2.2; omega⟩
  · simp only [toks, trimmed_eq hwb.1 hwb.2.2.1, trimmed_eq hwb.2.1 hwb.2.2.2.1, fixAt]; rfl

theorem valueBy_toks {as n pos v} (h : valueBy as n pos = some v) : ∃ a ∈ as, ∀ t ∈ toks v, t ∈ toks a := by
  unfold valueBy at h
  obtain ⟨a, h1, h2⟩ := Option.bind_eq_some_iff.mp h
  exact ⟨a, argBy_mem h1, argValue_toks h2⟩

theorem WF_piece {md e x} (hm : md = .free ∨ oneLine (toks e)) (hx : isExpr x = true) (hw : WF .free x)
    (ht : ∀ t ∈ toks x, t ∈ (toks e).tail) : WF md x := by
  rcases hm with rfl | ho
  · exact hw
  · exact WF_oneLine hx hw fun t h => ho t (ht t (List.mem_of_mem_tail h))

theorem room_redundantIfelse : RoomRule redundantIfelse := by
  intro ts p z ed hp hz h _ hm
  have hw := at_place hp hz
  unrule redundantIfelse h
  obtain ⟨f, args, h1, n1, n2, n3, _, _, _, c, hc, t, _, e, _, h⟩ := h
  have hi := asCall_items hw h1
  have hok := valueBy_ok hi hc
  split at h
  · cases h
    obtain ⟨a, ha, hat⟩ := valueBy_toks hc
    exact good_room (e := c) hp hz (asCall_expr h1) ⟨hok.expr, WF_piece hm hok.expr hok.wf fun t ht =>
      asCall_toks hw h1 _ (items_toks ha _ (hat _ ht)), rfl⟩
  · split at h
    · cases h
      exact good_room (e := .un .none .bang (.paren .none c .none)) hp hz (asCall_expr h1)
        ⟨rfl, ⟨rfl, ⟨hok.expr, hok.wf⟩, 9, rfl, show 18 ≤ topBp by decide⟩, by simp only [toks, fixAt]; rfl⟩
    · cases h
/-- From top level into braces. -/
theorem WF_brace {e} : ∀ {md}, md ≠ .free → isExpr e = true → WF md e → WF .brace e := by
  have J : ∀ {md g}, md ≠ Mode.free → joins md g → joins .brace g := fun h hj => hj.elim (fun x => absurd x h) .inr
  induction e with
  | un g o e ih => intro md hm _ hw; exact ⟨hw.1, ih hm hw.1 hw.2.1, hw.2.2⟩
  | bin l g o r ihl ihr =>
    intro md hm _ hw
    exact ⟨hw.1, hw.2.1, ihl hm hw.1 hw.2.2.1, ihr hm hw.2.1 hw.2.2.2.1, hw.2.2.2.2.1, J hm hw.2.2.2.2.2.1, hw.2.2.2.2.2.2⟩
  | ext l g a g2 k s ihl => intro md hm _ hw; exact ⟨hw.1, ihl hm hw.1 hw.2.1, J hm hw.2.2.1, hw.2.2.2⟩
  | call f g b args g2 ihf _ => intro md hm _ hw; exact ⟨hw.1, ihf hm hw.1 hw.2.1, J hm hw.2.2.1, hw.2.2.2⟩
  | func g la g2 ps g3 b _ ihb =>
    intro md hm _ hw; exact ⟨hw.1, hw.2.1, hw.2.2.1, hw.2.2.2.1, ihb hm hw.2.2.2.1 hw.2.2.2.2.1, hw.2.2.2.2.2⟩
  | ifE g g2 c g3 t _ iht =>
    intro md hm _ hw; exact ⟨hw.1, hw.2.1, hw.2.2.1, hw.2.2.2.1, iht hm hw.2.2.2.1 hw.2.2.2.2.1, hw.2.2.2.2.2⟩
  | ifElse g g2 c g3 t g4 e _ iht ihe =>
    intro md hm _ hw
    obtain ⟨a, b, c, d, e1, f, g, h, i, j, k⟩ := hw
    exact ⟨a, b, c, d, iht hm d e1, f, g, Or.inl (by decide), i, ihe hm i j, k⟩
  | whileE g g2 c g3 t _ iht =>
    intro md hm _ hw; exact ⟨hw.1, hw.2.1, hw.2.2.1, hw.2.2.2.1, iht hm hw.2.2.2.1 hw.2.2.2.2.1, hw.2.2.2.2.2⟩
  | forE g g2 gv v gi c g3 t _ iht =>
    intro md hm _ hw; exact ⟨hw.1, hw.2.1, hw.2.2.1, hw.2.2.2.1, iht hm hw.2.2.2.1 hw.2.2.2.2.1, hw.2.2.2.2.2⟩
  | repE g t iht => intro md hm _ hw; exact ⟨hw.1, iht hm hw.1 hw.2.1, hw.2.2⟩
  | atom => intro md _ _ hw; exact hw
  | paren => intro md _ _ hw; exact hw
  | braces => intro md _ _ hw; exact hw
  | _ => intro md _ he; cases he

/-- `while (TRUE)` becomes `repeat`, outside parentheses or with the body on one line. -/
theorem safe_repeatRule {ts p z ed} (hp : Parses ts p) (hz : z.prog = p) (h : repeatRule z = some ed)
    (hm : modeAt z.fs ≠ .free ∨ oneLine (toks z.e)) : GoodFix p ed := by
  have hw := at_place hp hz
  obtain ⟨fs, e⟩ := z
  unfold repeatRule at h
  split at h
  · next g g2 c g3 b he =>
    simp only at he; subst he
    split at h
    · cases h
      obtain ⟨h1, h2, h3, h4, h5, h6⟩ := hw
      refine ⟨hz, rfl, ?_⟩
      have top : bodyBp ≤ topBp := by decide
      -- the body of `repeat`
      have body : ∃ b', (∃ g ss g2, b' = .braces g ss g2) ∧ WF (modeAt fs) b' ∧ toks b' = inBraces b := by
        clear hz
        unfold inBraces
        split
        · next g ss g2 => exact ⟨.braces .none ss g2, ⟨_, _, _, rfl⟩, h5, rfl⟩
        · refine ⟨.braces .none (.scons (setGap .none b) [] .snil) .none, ⟨_, _, _, rfl⟩, ⟨rfl, ?_⟩, by simp [toks, trimmed_eq h4 h5, tk]⟩
          refine ⟨by rw [setGap_isExpr]; exact h4, setGap_wf ?_, rfl, trivial, fun h => absurd rfl h⟩
          rcases hm with hm | hm
          · exact WF_brace hm h4 h5
          · exact WF_oneLine h4 (WF_free (isArgs_of_isArg (isArg_of_isExpr h4)) h5) fun t ht => hm t (by
              have := List.mem_of_mem_tail ht
              simp [toks, this])
      obtain ⟨b', ⟨gb, ssb, gb2, rfl⟩, hb1, hb2⟩ := body
      have hr5 := rp_ge h5
      refine keeps_of (e0 := .repE .none (.braces gb ssb gb2)) hp hz rfl rfl (by rw [← hb2]; rfl) ⟨rfl, hb1, top⟩ ?_ ?_ (fun _ => rfl) ?_
      · intro o _ hl; simp only [rp] at hl ⊢; omega
      · intro hl; simp only [rp] at hl; unfold bodyBp postfixBp at hl; omega
      · exact Nat.le_trans (placeStrength_lt _) (show postfixBp ≤ topBp by decide)
    · cases h
  · cases h

theorem condText_reads {c} (hc : isExpr c = true) (hw : WF .free c) :
    ∃ n, isExpr n = true ∧ (∀ md, WF md n) ∧ lp n = topBp ∧ rp n = topBp ∧ toks n = condText c := by
  unfold condText
  split
  · next h =>
    revert h
    cases c <;> simp only [isAtom] <;> intro h <;> first | (cases h; done) | skip
    next g k s => exact ⟨.atom .none k s, rfl, fun _ => trivial, rfl, rfl, rfl⟩
  · exact ⟨.paren .none c .none, rfl, fun _ => ⟨hc, hw⟩, rfl, rfl, by simp [toks, tk]⟩

/-- One `if` instead of two, except at top level. -/
theorem safe_unnecessaryNesting {ts p z ed} (hp : Parses ts p) (hz : z.prog = p) (h : unnecessaryNesting z = some ed)
    (hm : modeAt z.fs ≠ .top ∨ oneLine (toks z.e)) : GoodFix p ed := by
  have hw := at_place hp hz
  obtain ⟨fs, e⟩ := z
  unfold unnecessaryNesting at h
  split at h
  · next g g2 c g3 gb gi gi2 c2 gi3 t2 semis gb2 he =>
    simp only at he hw hm; subst he
    cases h
    obtain ⟨h1, h2, h3, _, ⟨_, h4⟩, _⟩ := hw
    obtain ⟨_, ⟨h5, h6, h7, h8, h9, h10⟩, _, _, _⟩ := h4
    refine ⟨hz, rfl, ?_⟩
    obtain ⟨n1, a1, a2, a3, a4, a5⟩ := condText_reads h1 h2
    obtain ⟨n2, b1, b2, b3, b4, b5⟩ := condText_reads h5 h6
    have ht : WF (modeAt fs) (setGap .none t2) := by
      apply setGap_wf
      rcases hm with hm | hm
      · cases hmd : modeAt fs with
        | top => exact absurd hmd hm
        | brace => exact h9
        | free => exact WF_free (isArgs_of_isArg (isArg_of_isExpr h8)) h9
      · exact WF_oneLine h8 (WF_free (isArgs_of_isArg (isArg_of_isExpr h8)) h9) fun t ht => hm t (by
          have := List.mem_of_mem_tail ht
          simp [toks, this])
    have hr := rp_ge h9
    have hc : isExpr (.bin n1 .none .and2 n2) = true ∧ WF .free (.bin n1 .none .and2 n2) ∧ argBp ≤ lp (.bin n1 .none .and2 n2) :=
      ⟨rfl, ⟨a1, b1, a2 _, b2 _, rfl, Or.inr rfl, by rw [a4]; decide, by rw [b3]; decide⟩, by simp only [lp, a3]; decide⟩
    refine keeps_of (e0 := .ifE .none .none (.bin n1 .none .and2 n2) .none (setGap .none t2)) hp hz rfl rfl ?_
      ⟨hc.1, hc.2.1, hc.2.2, by rw [setGap_isExpr]; exact h8, ht, by rw [setGap_lp]; exact h10⟩ ?_ ?_ ?_ ?_
    · simp [toks, tk, a5, b5, trimmed_eq h8 h9]
    · intro o _ hl; simp only [rp, setGap_rp] at hl ⊢; omega
    · intro hl; simp only [rp] at hl; unfold bodyBp postfixBp at hl; omega
    · intro h; cases h
    · exact Nat.le_trans (placeStrength_lt _) (show postfixBp ≤ topBp by decide)
  · cases h

theorem lp_of_no_eq {e} : ∀ {md}, WF md e → (∀ t ∈ toks e, t.k ≠ .op .eq) → argBp ≤ lp e := by
  induction e with
  | bin l g o r ihl _ =>
    intro md hw h
    have := ihl hw.2.2.1 fun t ht => h t (by simp [toks, ht])
    have ho : o ≠ .eq := fun ho => h ⟨g, .op o⟩ (by simp [toks]) (by rw [ho])
    have : argBp ≤ lbp o := by revert ho; cases o <;> simp [lbp, level, argBp]
    simp only [lp]; omega
  | ext l g a g2 k s ihl =>
    intro md hw h
    have := ihl hw.2.1 fun t ht => h t (by simp [toks, ht])
    simp only [lp]; unfold argBp postfixBp at *; omega
  | call f g b args g2 ihf _ =>
    intro md hw h
    have := ihf hw.2.1 fun t ht => h t (by simp [toks, ht])
    simp only [lp]; unfold argBp postfixBp at *; omega
  | _ => intro md _ _; exact show argBp ≤ topBp by decide

theorem tail_mem {α} {l : List α} {a} (h : a ∈ l.tail) : a ∈ l := List.mem_of_mem_tail h

/-- `expect_true(!x)` becomes `expect_false(x)`, if there is no `=` inside. -/
theorem safe_expectNot {ts p z ed} (hp : Parses ts p) (hz : z.prog = p) (h : expectNot z = some ed)
    (hq : ∀ t ∈ toks z.e, t.k ≠ .op .eq) : GoodFix p ed := by
  have hw := at_place hp hz
  unrule expectNot h
  obtain ⟨f, args, h1, _, _, obj, ho, _, _, o, a, h2, _, hob, _, _, rfl⟩ := h
  have hob := guard_some hob
  subst hob
  have hok := valueBy_ok (asCall_items hw h1) ho
  obtain ⟨x, hx, hxt⟩ := valueBy_toks ho
  have sub : ∀ t ∈ toks obj, t ∈ toks z.e := fun t ht => tail_mem (asCall_toks hw h1 _ (items_toks hx _ (hxt _ ht)))
  obtain ⟨g, rfl⟩ := asUn_eq h2
  have hwo := hok.wf
  obtain ⟨w1, w2, k, hk, w3⟩ := hwo
  cases hk
  refine ClosedText.good (ClosedText.prefixed (ExprOk.text ?_)) hp hz (asCall_expr h1) _
  split
  · next b hb =>
    obtain ⟨g1, g2, rfl⟩ := asParen_eq hb
    exact ⟨w2.1, w2.2, lp_of_no_eq w2.2 fun t ht => hq t (sub t (by simp [toks, ht]))⟩
  · exact ⟨w1, w2, Nat.le_trans (by decide) w3⟩

theorem single_ok {md e} (he : isExpr e = true) (hw : WF md e) :
    isExpr (singleStatement e) = true ∧ WF .free (singleStatement e) ∧ ∀ t ∈ toks (singleStatement e), t ∈ toks e := by
  unfold singleStatement
  split
  · obtain ⟨_, h1, h2, _⟩ := hw
    exact ⟨h1, WF_free (isArgs_of_isArg (isArg_of_isExpr h1)) h2, fun t ht => by simp [toks, ht]⟩
  · exact ⟨he, WF_free (isArgs_of_isArg (isArg_of_isExpr he)) hw, fun _ h => h⟩

/-- `if (is.null(x)) y else x` becomes `x %||% y`, if the two sides bind tightly enough. -/
theorem room_coalesce {ts p z ed} (hp : Parses ts p) (hz : z.prog = p) (h : coalesce z = some ed) (hs : ed.skip = false)
    (hm : modeAt z.fs = .free ∨ oneLine (toks z.e)) :
    ∃ x y, isExpr x = true ∧ isExpr y = true ∧ ed.content = toks x ++ tk (.op (.special (cs! "||"))) :: toks y ∧
      (26 < rp x → 27 ≤ lp y → room z.fs (min (lp x) (min 26 (rp y))) → GoodFix p ed) := by
  have hw := at_place hp hz
  obtain ⟨fs, e⟩ := z
  unfold coalesce at h
  split at h
  · next g g2 c g3 t g4 el he =>
    simp only at he hw hm ⊢; subst he
    obtain ⟨h1, h2, h3, h4, h5, h6, h7, h8, h9, h10, h11⟩ := hw
    simp only [Option.bind_eq_bind, Option.bind_eq_some_iff, Prod.exists, Option.some.injEq] at h
    obtain ⟨call, same, other, hpick, f, args, hcall, _, _, _, _, x, hx, _, _, rfl⟩ := h
    have hsk := (Bool.or_eq_false_iff.mp hs).2
    have hc : WF .free call ∧ ∀ t ∈ toks call, t ∈ toks c := by
      revert hpick
      split
      · intro h; cases h; exact ⟨h2, fun _ h => h⟩
      · next ga a => intro h; cases h; exact ⟨h2.2.1, fun _ h => by simp [toks, h]⟩
      · intro h; cases h
    have hot : isExpr other = true ∧ WF (modeAt fs) other ∧ ∀ t' ∈ toks other, t' ∈ (toks (.ifElse g g2 c g3 t g4 el)).tail := by
      revert hpick
      split
      · intro h; cases h; exact ⟨h4, h5, fun _ h => by simp [toks, h]⟩
      · intro h; cases h; exact ⟨h9, h10, fun _ h => by simp [toks, h]⟩
      · intro h; cases h
    obtain ⟨av, hav, hxv⟩ := List.mem_filterMap.mp (head?_mem hx)
    have hxok := argValue_ok (asCall_items hc.1 hcall av hav) hxv
    have hxw : WF (modeAt fs) (setGap .none x) := piece_wf hm hxok.expr hxok.wf fun t' ht => by
      have := hc.2 _ (tail_mem (asCall_toks hc.1 hcall _ (items_toks hav _ (argValue_toks hxv _ ht))))
      simp [toks, this]
    have hst := single_ok hot.1 hot.2.1
    have hyw : WF (modeAt fs) (setGap .none (singleStatement other)) := piece_wf hm hst.1 hst.2.1 fun t' ht => hot.2.2 _ (hst.2.2 _ ht)
    refine ⟨setGap .none x, setGap .none (singleStatement other), by rw [setGap_isExpr]; exact hxok.expr, by rw [setGap_isExpr]; exact hst.1, ?_, ?_⟩
    · simp only [hsk, Bool.false_eq_true, if_false]
      rw [trimmed_eq hxok.expr hxok.wf, trimmed_eq hst.1 hst.2.1]
    · intro hr1 hr2 hroom
      simp only [hsk, Bool.false_eq_true, if_false]
      refine ⟨hz, rfl, keeps_room (e0 := .bin (setGap .none x) .none (.special (cs! "||")) (setGap .none (singleStatement other))) hp hz rfl rfl ?_ ?_ hroom ?_ ?_⟩
      · simp only [toks, trimmed_eq hxok.expr hxok.wf, trimmed_eq hst.1 hst.2.1]; rfl
      · exact ⟨by rw [setGap_isExpr]; exact hxok.expr, by rw [setGap_isExpr]; exact hst.1, hxw, hyw, rfl, Or.inr rfl, hr1, hr2⟩
      · simp only [lp]; have : lbp (.special (cs! "||")) = 26 := rfl; omega
      · simp only [rp]; have : follow (.special (cs! "||")) = 27 := rfl; omega
  · cases h

/-- `x = 1` becomes `x <- 1`, if the left side does not end and the right side does not begin with an assignment. -/
theorem safe_assignment_eq {ts p z ed l r} (hp : Parses ts p) (hz : z.prog = p) (h : assignment .assign z = some ed)
    (hb : asBin z.e = some (l, .eq, r)) (hl : 8 < rp l) (hr : 8 ≤ lp r) : GoodFix p ed := by
  have hw := at_place hp hz
  obtain ⟨fs, e⟩ := z
  obtain ⟨g, he⟩ := asBin_eq hb
  simp only at he hw; subst he
  simp only [assignment, asBin, Option.bind_eq_bind, Option.bind_some, if_true, Option.some.injEq] at h
  subst h
  refine ⟨hz, rfl, keeps_of (e0 := .bin (setGap .none l) .none .assign (setGap .none r)) hp hz rfl rfl ?_ ?_ ?_ ?_ ?_ ?_⟩
  · simp only [toks, trimmed_eq hw.1 hw.2.2.1, trimmed_eq hw.2.1 hw.2.2.2.1]; rfl
  · exact ⟨by rw [setGap_isExpr]; exact hw.1, by rw [setGap_isExpr]; exact hw.2.1, setGap_wf hw.2.2.1, setGap_wf hw.2.2.2.1, rfl, Or.inr rfl,
      by rw [setGap_rp]; exact hl, by rw [setGap_lp]; exact hr⟩
  · intro o _ hl; simp only [rp, setGap_rp] at hl ⊢; have : follow .eq = 6 := rfl; have : follow .assign = 8 := rfl; omega
  · intro hl; simp only [rp] at hl; have : follow .eq = 6 := rfl; unfold postfixBp at hl; omega
  · intro h; simp only [openIf, setGap_openIf] at h ⊢; exact h
  · have := placeStrength_le (fs := fs) (e := .bin l g .eq r) (by subst hz; exact hp.2.1)
    simp only [lp, setGap_lp] at this ⊢
    have : lbp .eq = 6 := rfl; have : lbp .assign = 8 := rfl; omega

/-- `1 -> x` becomes `x <- 1` or `x = 1`, if `x` is not itself an assignment or the like, and there is room. -/
theorem room_assignment_right {ts p z ed l r want} (hp : Parses ts p) (hz : z.prog = p) (h : assignment want z = some ed)
    (hwant : want = .assign ∨ want = .eq) (hb : asBin z.e = some (l, .rassign, r)) (hr : 8 < rp r)
    (hroom : room z.fs (min (lbp want) (rp l))) : GoodFix p ed := by
  have hw := at_place hp hz
  obtain ⟨fs, e⟩ := z
  obtain ⟨g, he⟩ := asBin_eq hb
  simp only at he hw hroom; subst he
  have hwb : lbp want ≤ 8 ∧ rbp want = lbp want ∧ follow want = lbp want ∧ Infix want = true ∧ lbp want % 2 = 0 := by rcases hwant with rfl | rfl <;> decide
  have hll := rp_lp hw.1 hw.2.2.1 10 (by decide) (by decide) (show 10 < rp l from hw.2.2.2.2.2.2.1)
  have hlr := rp_lp hw.2.1 hw.2.2.2.1 8 (by decide) (by decide) hr
  have hed : ed = ⟨⟨fs, .bin l g .rassign r⟩, trimmed r ++ tk (.op want) :: trimmed l, false⟩ := by
    rcases hwant with rfl | rfl <;> simp [assignment, asBin] at h <;> exact h.symm
  subst hed
  refine ⟨hz, rfl, keeps_room (e0 := .bin (setGap .none r) .none want (setGap .none l)) hp hz rfl rfl ?_ ?_ hroom ?_ ?_⟩
  · simp only [toks, trimmed_eq hw.1 hw.2.2.1, trimmed_eq hw.2.1 hw.2.2.2.1]; rfl
  · exact ⟨by rw [setGap_isExpr]; exact hw.2.1, by rw [setGap_isExpr]; exact hw.1, setGap_wf hw.2.2.2.1, setGap_wf hw.2.2.1, hwb.2.2.2.1, Or.inr rfl,
      by rw [setGap_rp]; omega, by rw [setGap_lp]; omega⟩
  · simp only [lp, setGap_lp]; omega
  · simp only [rp, setGap_rp]; omega

/-- `x <- 1` becomes `x = 1` where the configuration asks for it, in a statement of its own or in parentheses. -/
theorem room_assignment_left {ts p z ed l r} (hp : Parses ts p) (hz : z.prog = p) (h : assignment .eq z = some ed)
    (hb : asBin z.e = some (l, .assign, r)) (hroom : room z.fs 6) (hr : 6 ≤ rp r) : GoodFix p ed := by
  have hw := at_place hp hz
  obtain ⟨fs, e⟩ := z
  obtain ⟨g, he⟩ := asBin_eq hb
  simp only at he hw hroom; subst he
  simp [assignment, asBin] at h
  subst h
  have hll := rp_lp hw.1 hw.2.2.1 8 (by decide) (by decide) (show 8 < rp l from hw.2.2.2.2.2.2.1)
  have h1 : (8:Nat) < rp l := hw.2.2.2.2.2.2.1
  have h2 : (8:Nat) ≤ lp r := hw.2.2.2.2.2.2.2
  have hb1 : lbp .eq = 6 := rfl
  have hb2 : follow .eq = 6 := rfl
  have hb3 : rbp .eq = 6 := rfl
  refine ⟨hz, rfl, keeps_room (e0 := .bin (setGap .none l) .none .eq (setGap .none r)) (k := 6) hp hz rfl rfl ?_ ?_ hroom ?_ ?_⟩
  · simp only [toks, trimmed_eq hw.1 hw.2.2.1, trimmed_eq hw.2.1 hw.2.2.2.1]; rfl
  · exact ⟨by rw [setGap_isExpr]; exact hw.1, by rw [setGap_isExpr]; exact hw.2.1, setGap_wf hw.2.2.1, setGap_wf hw.2.2.2.1, rfl, Or.inr rfl,
      by rw [setGap_rp]; omega, by rw [setGap_lp]; omega⟩
  · simp only [lp, setGap_lp]; omega
  · simp only [rp, setGap_rp]; omega
end Jarl
