import Verif.Props.RGrammar
/-!
# Replacing an expression in a program
-/
namespace Jarl
open Spec

theorem toks_fill (f : Frame) (e : Node) : toks (f.fill e) = f.before ++ toks e ++ f.after := by
  cases f <;> simp [Frame.fill, Frame.before, Frame.after, toks]

theorem toks_plug (fs : List Frame) (e : Node) : toks (plug fs e) = beforeToks fs ++ toks e ++ afterToks fs := by
  induction fs generalizing e with
  | nil => simp [plug, beforeToks, afterToks]
  | cons f fs ih => simp [plug, beforeToks, afterToks, ih, toks_fill]

theorem rp_le (e : Node) : rp e ≤ topBp := by
  induction e <;> simp only [rp] <;> omega

theorem follow_lbp (o : Op) : follow o ≤ lbp o + 1 := by
  unfold follow rbp lbp; split
  · omega
  · split <;> omega

theorem lbp_le (o : Op) : lbp o ≤ 32 := by cases o <;> simp [lbp, level]

theorem lbp_even (o : Op) : lbp o % 2 = 0 := by unfold lbp; omega

/-- If an operator may follow the expression, it does not bind tighter than what is on the left of the expression. -/
theorem rp_lp {e : Node} : ∀ {md}, isExpr e = true → WF md e → ∀ k, k % 2 = 0 → k ≤ postfixBp → k < rp e → k ≤ lp e := by
  induction e with
  | bin l g o r ihl _ =>
    intro md _ hw k hk hp hr
    simp only [rp] at hr
    have h1 := ihl hw.1 hw.2.2.1 (lbp o) (lbp_even o) (by have := lbp_le o; unfold postfixBp; omega) hw.2.2.2.2.2.2.1
    have h2 := follow_lbp o
    have h3 := lbp_even o
    simp only [lp]
    omega
  | ext l g a g2 k s ihl =>
    intro md _ hw k hk hp hr
    have h1 := ihl hw.1 hw.2.1 postfixBp (by decide) (Nat.le_refl _) hw.2.2.2
    simp only [lp]
    omega
  | call f g b args g2 ihf _ =>
    intro md _ hw k hk hp hr
    have h1 := ihf hw.1 hw.2.1 postfixBp (by decide) (Nat.le_refl _) hw.2.2.2.1
    simp only [lp]
    omega
  | _ =>
    intro md he hw k hk hp hr
    simp only [lp]
    exact Nat.le_trans hp (by decide)

/-- `e'` is no worse than `e`, at a place of mode `md`, apart from what is on its left. -/
structure Fits (md : Mode) (e e' : Node) : Prop where
  expr : isExpr e' = isExpr e
  stmts : isStmts e' = isStmts e
  args : isArgs e' = isArgs e
  arg : isArg e' = isArg e
  hole : e' = .hole ↔ e = .hole
  snil : e' = .snil ↔ e = .snil
  wf : WF md e'
  op : ∀ o, Infix o = true → lbp o < rp e → lbp o < rp e'
  post : postfixBp < rp e → postfixBp < rp e'
  openIf : openIf e = false → openIf e' = false
  ne : toks e = [] → toks e' = []
  ne' : toks e' = [] → toks e = []
  gap : (headGap (toks e)).nl = true → (headGap (toks e')).nl = true

theorem headGap_append {a b : List Tok} (h : a ≠ []) : headGap (a ++ b) = headGap a := by
  cases a with
  | nil => exact absurd rfl h
  | cons => rfl

/-- The strength of the frame is what the expression at its place meets. -/
theorem strength_le {md f e} (h : WF md (f.fill e)) : strength f ≤ lp e := by
  cases f <;> simp only [Frame.fill, WF, strength] at h ⊢ <;> try omega
  · obtain ⟨_, _, k, hk, h⟩ := h; simp only [hk, Option.getD]; exact h
  · rcases h.2 with rfl | h
    · decide
    · exact h.2.2

theorem Fits.fill_wf {md f e e'} (h : Fits (inner md f) e e') (hs : strength f ≤ lp e') (hw : WF md (f.fill e)) : WF md (f.fill e') := by
  have h1 := h.expr; have h2 := h.stmts; have h3 := h.args; have h4 := h.arg; have h5 := h.hole; have h6 := h.snil
  have h7 := h.wf; have h8 := h.op; have h9 := h.post; have h10 := h.openIf; have h11 := h.gap
  cases f <;> simp only [Frame.fill, WF, strength, inner] at hw hs h7 ⊢
  case un =>
    obtain ⟨a, b, k, hk, c⟩ := hw
    rw [hk] at hs
    exact ⟨h1 ▸ a, h7, k, hk, hs⟩
  case binL => exact ⟨h1 ▸ hw.1, hw.2.1, h7, hw.2.2.2.1, hw.2.2.2.2.1, hw.2.2.2.2.2.1, h8 _ hw.2.2.2.2.1 hw.2.2.2.2.2.2.1, hw.2.2.2.2.2.2.2⟩
  case binR => exact ⟨hw.1, h1 ▸ hw.2.1, hw.2.2.1, h7, hw.2.2.2.2.1, hw.2.2.2.2.2.1, hw.2.2.2.2.2.2.1, hs⟩
  case ext => exact ⟨h1 ▸ hw.1, h7, hw.2.2.1, h9 hw.2.2.2⟩
  case callF => exact ⟨h1 ▸ hw.1, h7, hw.2.2.1, h9 hw.2.2.2.1, hw.2.2.2.2⟩
  case named =>
    refine ⟨hw.1, hw.2.imp h5.mpr fun a => ⟨h1 ▸ a.1, h7, hs⟩⟩
  case ieT => simp_all
  case sconsR => simp_all
  all_goals simp_all

theorem Fits.fill_rp {md f e e'} (h : Fits (inner md f) e e') :
    (∀ o, Infix o = true → lbp o < rp (f.fill e) → lbp o < rp (f.fill e')) ∧ (postfixBp < rp (f.fill e) → postfixBp < rp (f.fill e')) ∧
    (Spec.openIf (f.fill e) = false → Spec.openIf (f.fill e') = false) := by
  have h8 := h.op; have h9 := h.post; have h10 := h.openIf
  cases f <;> simp only [Frame.fill, rp, Spec.openIf] <;> refine ⟨fun o ho hl => ?_, fun hl => ?_, fun hl => ?_⟩ <;>
    first | exact hl | exact h10 hl | (have := h8 o ho (by omega); omega) | (have := h9 (by omega); omega)

theorem Fits.fill_toks {md f e e'} (h : Fits (inner md f) e e') :
    (toks (f.fill e) = [] → toks (f.fill e') = []) ∧ (toks (f.fill e') = [] → toks (f.fill e) = []) ∧
    ((headGap (toks (f.fill e))).nl = true → (headGap (toks (f.fill e'))).nl = true) := by
  rw [toks_fill, toks_fill]
  refine ⟨fun a => ?_, fun a => ?_, fun a => ?_⟩
  · simp only [List.append_eq_nil_iff] at a ⊢; exact ⟨⟨a.1.1, h.ne a.1.2⟩, a.2⟩
  · simp only [List.append_eq_nil_iff] at a ⊢; exact ⟨⟨a.1.1, h.ne' a.1.2⟩, a.2⟩
  · by_cases hb : f.before = []
    · simp only [hb, List.nil_append] at a ⊢
      by_cases hn : toks e = []
      · rw [h.ne hn]; rw [hn] at a; exact a
      · rw [headGap_append hn] at a; rw [headGap_append (fun x => hn (h.ne' x))]; exact h.gap a
    · rw [List.append_assoc, headGap_append hb] at a ⊢; exact a

theorem Fits.fill_lp {md f e e'} (h : Fits (inner md f) e e') (hw : WF md (f.fill e)) :
    lp (f.fill e) ≤ lp (f.fill e') := by
  have h7 := h.wf
  cases f <;> simp only [Frame.fill, lp, inner, WF] at hw h7 ⊢ <;> try exact Nat.le_refl _
  case binL g o r =>
    have := rp_lp (h.expr ▸ hw.1) h7 (lbp o) (lbp_even o) (by have := lbp_le o; unfold postfixBp; omega) (h.op _ hw.2.2.2.2.1 hw.2.2.2.2.2.2.1)
    omega
  case ext =>
    have := rp_lp (h.expr ▸ hw.1) h7 postfixBp (by decide) (Nat.le_refl _) (h.post hw.2.2.2)
    omega
  case callF =>
    have := rp_lp (h.expr ▸ hw.1) h7 postfixBp (by decide) (Nat.le_refl _) (h.post hw.2.2.2.1)
    omega

/-- From a place to the frame around it. -/
theorem Fits.fill {md f e e'} (h : Fits (inner md f) e e') (hs : strength f ≤ lp e') (hw : WF md (f.fill e)) :
    Fits md (f.fill e) (f.fill e') where
  expr := by cases f <;> rfl
  stmts := by cases f <;> rfl
  args := by cases f <;> rfl
  arg := by cases f <;> rfl
  hole := by cases f <;> simp [Frame.fill]
  snil := by cases f <;> simp [Frame.fill]
  wf := h.fill_wf hs hw
  op := h.fill_rp.1
  post := h.fill_rp.2.1
  openIf := h.fill_rp.2.2
  ne := h.fill_toks.1
  ne' := h.fill_toks.2.1
  gap := h.fill_toks.2.2

/-- What is at a place is well-formed. -/
theorem WF.at {md f e} (hw : WF md (f.fill e)) : WF (inner md f) e := by
  cases f <;> simp only [Frame.fill, inner] at hw ⊢ <;> simp only [WF] at hw
  case named => rcases hw.2 with rfl | h; · trivial
                exact h.2.1
  all_goals simp_all

theorem WF_plug {fs e} (hw : WF .top (plug fs e)) : WF (modeAt fs) e := by
  induction fs generalizing e with
  | nil => exact hw
  | cons f fs ih => exact WF.at (ih hw)

/-- How tightly the place binds what is there. -/
def placeStrength : List Frame → Nat
  | [] => 0
  | f :: _ => strength f

theorem Fits.plug {fs e e'} (h : Fits (modeAt fs) e e') (hs : placeStrength fs ≤ lp e') (hw : WF .top (plug fs e)) :
    Fits .top (plug fs e) (plug fs e') := by
  induction fs generalizing e e' with
  | nil => exact h
  | cons f fs ih =>
    have hw' := WF_plug (fs := fs) (e := f.fill e) hw
    refine ih (h.fill hs hw') ?_ hw
    refine Nat.le_trans ?_ (h.fill_lp hw')
    cases fs with
    | nil => exact Nat.zero_le _
    | cons f2 fs => exact strength_le (WF_plug (fs := fs) hw)

/-- Replacing an expression by one that fits. -/
theorem Fits.parses {fs e e' ts} (h : Fits (modeAt fs) e e') (hs : placeStrength fs ≤ lp e') (hp : Parses ts (Jarl.plug fs e)) :
    Parses (beforeToks fs ++ toks e' ++ afterToks fs) (Jarl.plug fs e') := by
  have h' := h.plug hs hp.2.1
  exact ⟨h'.stmts ▸ hp.1, h'.wf, toks_plug fs e'⟩
end Jarl
