import Verif.Lemmas.RGrammar
import Verif.Spec.RFix
/-!
# Fixes that keep the structure
-/
namespace Jarl
open Spec

/-- The node with another gap in front. -/
def setGap (h : Gap) : Node → Node
  | .atom _ k s => .atom h k s
  | .paren _ e g2 => .paren h e g2
  | .braces _ ss g2 => .braces h ss g2
  | .un _ o e => .un h o e
  | .bin l g o r => .bin (setGap h l) g o r
  | .ext l g a g2 k s => .ext (setGap h l) g a g2 k s
  | .call f g b args g2 => .call (setGap h f) g b args g2
  | .func _ la g2 params g3 body => .func h la g2 params g3 body
  | .ifE _ g2 c g3 t => .ifE h g2 c g3 t
  | .ifElse _ g2 c g3 t g4 e => .ifElse h g2 c g3 t g4 e
  | .whileE _ g2 c g3 b => .whileE h g2 c g3 b
  | .forE _ g2 gv v gi seq g3 b => .forE h g2 gv v gi seq g3 b
  | .repE _ b => .repE h b
  | .hole => .hole
  | .named _ k s g2 e => .named h k s g2 e
  | .comma a g rest => .comma a g rest
  | .snil => .snil
  | .scons e semis rest => .scons e semis rest

theorem setHead_append {a b : List Tok} {g} (h : a ≠ []) : setHead g (a ++ b) = setHead g a ++ b := by
  cases a with
  | nil => exact absurd rfl h
  | cons => rfl

theorem expr_toks {md e} (he : isExpr e = true) (hw : WF md e) : toks e ≠ [] := by
  obtain ⟨t, ts, h, _⟩ := RParser.expr_start he md hw
  simp [h]

theorem setGap_isExpr (h e) : isExpr (setGap h e) = isExpr e := by cases e <;> rfl
theorem setGap_isArg (h e) : isArg (setGap h e) = isArg e := by cases e <;> rfl
theorem setGap_isArgs (h e) : isArgs (setGap h e) = isArgs e := by cases e <;> rfl

theorem setGap_lp (h e) : lp (setGap h e) = lp e := by
  induction e <;> simp_all [setGap, lp]

theorem setGap_rp (h e) : rp (setGap h e) = rp e := by
  induction e <;> simp_all [setGap, rp]

theorem setGap_openIf (h e) : openIf (setGap h e) = openIf e := by
  induction e <;> simp_all [setGap, openIf]

theorem setGap_wf {h e} : ∀ {md}, WF md e → WF md (setGap h e) := by
  induction e with
  | bin l g o r ihl _ =>
    intro md hw
    simp only [setGap, WF] at hw ⊢
    rw [setGap_isExpr, setGap_rp]
    exact ⟨hw.1, hw.2.1, ihl hw.2.2.1, hw.2.2.2⟩
  | ext l g a g2 k s ihl =>
    intro md hw
    simp only [setGap, WF] at hw ⊢
    rw [setGap_isExpr, setGap_rp]
    exact ⟨hw.1, ihl hw.2.1, hw.2.2⟩
  | call f g b args g2 ihf _ =>
    intro md hw
    simp only [setGap, WF] at hw ⊢
    rw [setGap_isExpr, setGap_rp]
    exact ⟨hw.1, ihf hw.2.1, hw.2.2⟩
  | _ => intro md hw; exact hw

theorem setGap_toks {h e} : ∀ {md}, isArg e = true → WF md e → toks (setGap h e) = setHead h (toks e) := by
  induction e with
  | bin l g o r ihl _ =>
    intro md _ hw
    simp only [setGap, toks]
    rw [setHead_append (expr_toks hw.1 hw.2.2.1), ihl (by have := hw.1; revert this; cases l <;> simp [isArg, isExpr]) hw.2.2.1]
  | ext l g a g2 k s ihl =>
    intro md _ hw
    simp only [setGap, toks]
    rw [setHead_append (expr_toks hw.1 hw.2.1), ihl (by have := hw.1; revert this; cases l <;> simp [isArg, isExpr]) hw.2.1]
  | call f g b args g2 ihf _ =>
    intro md _ hw
    simp only [setGap, toks]
    rw [List.append_assoc, List.append_assoc, setHead_append (expr_toks hw.1 hw.2.1), ihf (by have := hw.1; revert this; cases f <;> simp [isArg, isExpr]) hw.2.1]
  | comma => intro md ha; simp [isArg, isExpr] at ha
  | scons => intro md ha; simp [isArg, isExpr] at ha
  | _ => intro md _ _; simp [setGap, toks, setHead]

theorem isArg_of_isExpr {e} (h : isExpr e = true) : isArg e = true := by
  revert h; cases e <;> simp [isArg, isExpr]

theorem isArgs_of_isArg {e} (h : isArg e = true) : isArgs e = true := by
  revert h; cases e <;> simp [isArgs, isArg, isExpr]

/-- In parentheses everything is allowed that is allowed elsewhere. -/
theorem WF_free {e} : ∀ {md}, isArgs e = true → WF md e → WF .free e := by
  have A : ∀ {x : Node}, isExpr x = true → isArgs x = true := fun h => isArgs_of_isArg (isArg_of_isExpr h)
  induction e with
  | un g o e ih => intro md _ hw; exact ⟨hw.1, ih (A hw.1) hw.2.1, hw.2.2⟩
  | bin l g o r ihl ihr =>
    intro md _ hw
    exact ⟨hw.1, hw.2.1, ihl (A hw.1) hw.2.2.1, ihr (A hw.2.1) hw.2.2.2.1, hw.2.2.2.2.1, Or.inl rfl, hw.2.2.2.2.2.2⟩
  | ext l g a g2 k s ihl => intro md _ hw; exact ⟨hw.1, ihl (A hw.1) hw.2.1, Or.inl rfl, hw.2.2.2⟩
  | call f g b args g2 ihf _ => intro md _ hw; exact ⟨hw.1, ihf (A hw.1) hw.2.1, Or.inl rfl, hw.2.2.2⟩
  | func g la g2 ps g3 b _ ihb =>
    intro md _ hw; exact ⟨hw.1, hw.2.1, hw.2.2.1, hw.2.2.2.1, ihb (A hw.2.2.2.1) hw.2.2.2.2.1, hw.2.2.2.2.2⟩
  | ifE g g2 c g3 t _ iht =>
    intro md _ hw; exact ⟨hw.1, hw.2.1, hw.2.2.1, hw.2.2.2.1, iht (A hw.2.2.2.1) hw.2.2.2.2.1, hw.2.2.2.2.2⟩
  | ifElse g g2 c g3 t g4 e _ iht ihe =>
    intro md _ hw
    obtain ⟨a, b, c, d, e1, f, g, h, i, j, k⟩ := hw
    exact ⟨a, b, c, d, iht (A d) e1, f, g, Or.inl (by decide), i, ihe (A i) j, k⟩
  | whileE g g2 c g3 t _ iht =>
    intro md _ hw; exact ⟨hw.1, hw.2.1, hw.2.2.1, hw.2.2.2.1, iht (A hw.2.2.2.1) hw.2.2.2.2.1, hw.2.2.2.2.2⟩
  | forE g g2 gv v gi c g3 t _ iht =>
    intro md _ hw; exact ⟨hw.1, hw.2.1, hw.2.2.1, hw.2.2.2.1, iht (A hw.2.2.2.1) hw.2.2.2.2.1, hw.2.2.2.2.2⟩
  | repE g t iht => intro md _ hw; exact ⟨hw.1, iht (A hw.1) hw.2.1, hw.2.2⟩
  | scons => intro md h; simp [isArgs, isArg, isExpr] at h
  | snil => intro md h; simp [isArgs, isArg, isExpr] at h
  | _ => intro md _ hw; exact hw

/-! ## Text that reads as arguments or as an expression -/

/-- The tokens are a list of arguments. -/
def ArgsText (c : List Tok) : Prop := ∃ n, isArgs n = true ∧ WF .free n ∧ argBp ≤ lp n ∧ toks n = c

/-- The tokens are a closed expression: nothing can bind to a part of it. -/
def ClosedText (c : List Tok) : Prop :=
  ∃ n, isExpr n = true ∧ (∀ md, WF md n) ∧ postfixBp ≤ lp n ∧ rp n = topBp ∧ openIf n = false ∧ toks n = c

theorem ArgsText.nil : ArgsText [] := ⟨.hole, rfl, trivial, by decide, rfl⟩

theorem ClosedText.args {c} (h : ClosedText c) : ArgsText c := by
  obtain ⟨n, a, b, d, _, _, f⟩ := h
  exact ⟨n, isArgs_of_isArg (isArg_of_isExpr a), b _, Nat.le_trans (by decide) d, f⟩

theorem isArgs_cases {n : Node} (h : isArgs n = true) : isArg n = true ∨ ∃ a g r, n = .comma a g r := by
  revert h; cases n <;> simp [isArgs]

theorem ArgsText.comma {c d} (hc : ArgsText c) (hd : ArgsText d) : ArgsText (c ++ tk .comma :: d) := by
  obtain ⟨n, h1, h2, h3, rfl⟩ := hc
  induction n with
  | comma a g r _ ihr =>
    obtain ⟨m, m1, m2, m3, m4⟩ := ihr h2.2.2.2.1 h2.2.2.2.2.1 h2.2.2.2.2.2
    exact ⟨.comma a g m, rfl, ⟨h2.1, h2.2.1, h2.2.2.1, m1, m2, m3⟩, show argBp ≤ topBp by decide, by simp [toks, m4]⟩
  | _ =>
    obtain ⟨m, m1, m2, m3, rfl⟩ := hd
    refine ⟨.comma _ .none m, rfl, ⟨?_, h2, h3, m1, m2, m3⟩, show argBp ≤ topBp by decide, rfl⟩
    first | rfl | (simp [isArgs, isArg, isExpr] at h1; done)

theorem ArgsText.join {l} (h : ∀ c ∈ l, ArgsText c) : ArgsText (joinComma l) := by
  induction l with
  | nil => exact ArgsText.nil
  | cons a as ih =>
    cases as with
    | nil => exact h a (by simp)
    | cons b bs => exact ArgsText.comma (h a (by simp)) (ih fun c hc => h c (by simp [hc]))

theorem ClosedText.call {c k name} (h : ArgsText c) : ClosedText (tk (.atom k name) :: tk (.open .par) :: c ++ [tk (.close .par)]) := by
  obtain ⟨n, a, b, d, rfl⟩ := h
  exact ⟨.call (.atom .none k name) .none .par n .none, rfl, fun md => ⟨rfl, trivial, Or.inr rfl, show postfixBp < topBp by decide, a, b, d⟩, by simp [lp, topBp, postfixBp], rfl, rfl,
    by simp [toks, tk]⟩

theorem ClosedText.callText {c name} (h : ArgsText c) : ClosedText (callText name c) := ClosedText.call h

theorem ClosedText.prefixed {c f name} (h : ArgsText c) : ClosedText (prefixedText f name c) := by
  unfold prefixedText Jarl.prefixed
  split <;> exact ClosedText.call h

theorem ClosedText.atom (k s) : ClosedText [tk (.atom k s)] :=
  ⟨.atom .none k s, rfl, fun _ => trivial, show postfixBp ≤ topBp by decide, rfl, rfl, rfl⟩

/-- What an argument is. -/
structure ArgOk (a : Node) : Prop where
  arg : isArg a = true
  wf : WF .free a
  lp : argBp ≤ lp a

/-- What the value of an argument is. -/
structure ExprOk (a : Node) : Prop where
  expr : isExpr a = true
  wf : WF .free a
  lp : argBp ≤ Spec.lp a

theorem ExprOk.argOk {a} (h : ExprOk a) : ArgOk a := ⟨isArg_of_isExpr h.expr, h.wf, h.lp⟩

theorem ArgOk.text {a} (h : ArgOk a) : ArgsText (trimmed a) :=
  ⟨setGap .none a, by rw [setGap_isArgs]; exact isArgs_of_isArg h.arg, setGap_wf h.wf, by rw [setGap_lp]; exact h.lp, setGap_toks h.arg h.wf⟩

theorem ExprOk.text {a} (h : ExprOk a) : ArgsText (trimmed a) := h.argOk.text

theorem argList_ok {n} (h1 : isArgs n = true) (h2 : WF .free n) (h3 : argBp ≤ lp n) : ∀ a ∈ argList n, ArgOk a := by
  induction n with
  | comma a g r _ ihr =>
    intro x hx
    simp only [argList, List.mem_cons] at hx
    rcases hx with rfl | hx
    · exact ⟨h2.1, h2.2.1, h2.2.2.1⟩
    · exact ihr h2.2.2.2.1 h2.2.2.2.2.1 h2.2.2.2.2.2 x hx
  | _ =>
    intro x hx
    simp only [argList, List.mem_singleton] at hx
    subst hx
    exact ⟨h1, h2, h3⟩

theorem items_ok {n} (h1 : isArgs n = true) (h2 : WF .free n) (h3 : argBp ≤ lp n) : ∀ a ∈ items n, ArgOk a := by
  unfold items
  split
  · simp
  · exact argList_ok h1 h2 h3

theorem argValue_ok {a v} (h : ArgOk a) (hv : argValue a = some v) : ExprOk v := by
  have h1 := h.arg; have h2 := h.wf; have h3 := h.lp
  cases a <;> try (simp only [argValue, Option.some.injEq] at hv; subst hv; exact ⟨rfl, h2, h3⟩)
  case hole => simp [argValue] at hv
  case named g k s g2 e =>
    have : v = e ∧ e ≠ .hole := by
      revert hv; cases e <;> simp [argValue] <;> exact fun h => h.symm
    obtain ⟨rfl, hne⟩ := this
    rcases h2.2 with h | h
    · exact absurd h hne
    · exact ⟨h.1, h.2.1, h.2.2⟩
  case comma => simp [isArg, isExpr] at h1
  case snil => simp [isArg, isExpr] at h1
  case scons => simp [isArg, isExpr] at h1

theorem asCall_eq {e f args} (h : asCall e = some (f, args)) : ∃ g g2, e = .call f g .par args g2 := by
  revert h; unfold asCall; split
  · intro h; cases h; exact ⟨_, _, rfl⟩
  · intro h; cases h

theorem asSubset_eq {e f args} (h : asSubset e = some (f, args)) : ∃ g g2, e = .call f g .brk args g2 := by
  revert h; unfold asSubset; split
  · intro h; cases h; exact ⟨_, _, rfl⟩
  · intro h; cases h

theorem asBin_eq {e l o r} (h : asBin e = some (l, o, r)) : ∃ g, e = .bin l g o r := by
  revert h; unfold asBin; split
  · intro h; cases h; exact ⟨_, rfl⟩
  · intro h; cases h

theorem asUn_eq {e o a} (h : asUn e = some (o, a)) : ∃ g, e = .un g o a := by
  revert h; unfold asUn; split
  · intro h; cases h; exact ⟨_, rfl⟩
  · intro h; cases h

theorem asParen_eq {e a} (h : asParen e = some a) : ∃ g g2, e = .paren g a g2 := by
  revert h; unfold asParen; split
  · intro h; cases h; exact ⟨_, _, rfl⟩
  · intro h; cases h

theorem asCall_ok {md e f args} (hw : WF md e) (h : asCall e = some (f, args)) :
    isArgs args = true ∧ WF .free args ∧ argBp ≤ lp args := by
  obtain ⟨g, g2, rfl⟩ := asCall_eq h
  exact hw.2.2.2.2

theorem asCall_items {md e f args} (hw : WF md e) (h : asCall e = some (f, args)) : ∀ a ∈ items args, ArgOk a := by
  obtain ⟨a, b, c⟩ := asCall_ok hw h
  exact items_ok a b c

theorem asSubset_items {md e f args} (hw : WF md e) (h : asSubset e = some (f, args)) : ∀ a ∈ items args, ArgOk a := by
  obtain ⟨g, g2, rfl⟩ := asSubset_eq h
  exact items_ok hw.2.2.2.2.1 hw.2.2.2.2.2.1 hw.2.2.2.2.2.2

theorem asCall_text {md e f args} (hw : WF md e) (h : asCall e = some (f, args)) : ArgsText (toks args) := by
  obtain ⟨a, b, c⟩ := asCall_ok hw h
  exact ⟨args, a, b, c, rfl⟩

theorem asCall_expr {e f args} (h : asCall e = some (f, args)) : isExpr e = true := by
  obtain ⟨g, g2, rfl⟩ := asCall_eq h; rfl

theorem argByName_mem {as n a} (h : argByName as n = some a) : a ∈ as := List.mem_of_find?_eq_some h

theorem unnamedArgs_mem {as a} (h : a ∈ unnamedArgs as) : a ∈ as := (List.mem_filter.mp h).1

theorem namedArgs_mem {as a} (h : a ∈ namedArgs as) : a ∈ as := (List.mem_filter.mp h).1

theorem argBy_mem {as n pos a} (h : argBy as n pos = some a) : a ∈ as := by
  unfold argBy at h
  split at h
  · cases h; exact argByName_mem (by assumption)
  · exact unnamedArgs_mem (List.mem_of_getElem? h)

theorem valueBy_ok {as n pos v} (hok : ∀ a ∈ as, ArgOk a) (h : valueBy as n pos = some v) : ExprOk v := by
  unfold valueBy at h
  obtain ⟨a, h1, h2⟩ := Option.bind_eq_some_iff.mp h
  exact argValue_ok (hok a (argBy_mem h1)) h2

theorem dropArg_mem {as n pos bs b} (h : dropArg as n pos = some bs) (hb : b ∈ bs) : b ∈ as := by
  unfold dropArg at h
  split at h
  · cases h; exact (List.mem_filter.mp hb).1
  · split at h
    · cases h; exact List.mem_of_mem_eraseIdx hb
    · cases h

theorem head?_mem {α} {l : List α} {a} (h : l.head? = some a) : a ∈ l := List.mem_of_head? h

/-! ## Sufficient conditions -/

theorem joinHead_eq (g : Gap) (c : List Tok) : ∃ h, joinHead g c = setHead h c ∧ (g.nl = true → c ≠ [] → h.nl = true) := by
  cases c with
  | nil => exact ⟨.none, rfl, fun _ h => absurd rfl h⟩
  | cons t ts =>
    refine ⟨joinGap g t.gap, rfl, fun hg _ => ?_⟩
    cases g <;> cases ht : t.gap <;> simp_all [joinGap, Gap.nl]

/-- Replacing an expression by text that reads as an expression no worse. -/
theorem keeps_of {z : Zip} {c s e0} {p : Node} {ts} (hp : Parses ts p) (hz : z.prog = p) (he : isExpr z.e = true)
    (h0 : isExpr e0 = true) (hc : toks e0 = c) (hw : WF (modeAt z.fs) e0)
    (hop : ∀ o, Infix o = true → lbp o < rp z.e → lbp o < rp e0) (hpost : postfixBp < rp z.e → postfixBp < rp e0)
    (hif : openIf z.e = false → openIf e0 = false) (hs : placeStrength z.fs ≤ lp e0) : KeepsStructure ⟨z, c, s⟩ := by
  subst hz
  obtain ⟨h, h1, h2⟩ := joinHead_eq (headGap (toks z.e)) c
  have hwe := WF_plug (fs := z.fs) (e := z.e) hp.2.1
  have hne := expr_toks h0 hw
  have ht : toks (setGap h e0) = setHead h c := by rw [setGap_toks (isArg_of_isExpr h0) hw, hc]
  have hne' : toks (setGap h e0) ≠ [] := by
    rw [setGap_toks (isArg_of_isExpr h0) hw]; revert hne; cases toks e0 <;> simp [setHead]
  have hx : isExpr (setGap h e0) = true := by rw [setGap_isExpr]; exact h0
  have fits : Fits (modeAt z.fs) z.e (setGap h e0) :=
    { expr := by rw [hx, he]
      stmts := by revert hx he; cases z.e <;> cases setGap h e0 <;> simp [isStmts, isExpr]
      args := by rw [isArgs_of_isArg (isArg_of_isExpr hx), isArgs_of_isArg (isArg_of_isExpr he)]
      arg := by rw [isArg_of_isExpr hx, isArg_of_isExpr he]
      hole := ⟨fun h => (by rw [h] at hx; cases hx), fun h => (by rw [h] at he; cases he)⟩
      snil := ⟨fun h => (by rw [h] at hx; cases hx), fun h => (by rw [h] at he; cases he)⟩
      wf := setGap_wf hw
      op := fun o ho hl => by rw [setGap_rp]; exact hop o ho hl
      post := fun hl => by rw [setGap_rp]; exact hpost hl
      openIf := fun hl => by rw [setGap_openIf]; exact hif hl
      ne := fun h => absurd h (expr_toks he hwe)
      ne' := fun h => absurd h hne'
      gap := fun hg => by
        have := h2 hg (hc ▸ hne)
        rw [ht]; subst hc; revert hne; cases toks e0 <;> simp [setHead, headGap, this] }
  refine ⟨setGap h e0, hx, by rw [ht, h1], ?_⟩
  have := fits.parses (by rw [setGap_lp]; exact hs) hp
  unfold edited
  rw [h1, ← ht]
  exact this

theorem placeStrength_le {fs e} (hp : WF .top (plug fs e)) : placeStrength fs ≤ lp e := by
  cases fs with
  | nil => exact Nat.zero_le _
  | cons f fs => exact strength_le (WF_plug (fs := fs) hp)

theorem rbp_le (o : Op) : rbp o ≤ 32 := by cases o <;> simp [rbp, rightAssoc, level]

theorem unLevel_le {o k} (h : unLevel o = some k) : k ≤ 15 := by
  cases o <;> simp [unLevel] at h <;> omega

theorem placeStrength_lt (fs) : placeStrength fs ≤ postfixBp := by
  cases fs with
  | nil => exact Nat.zero_le _
  | cons f fs =>
    cases f <;> simp only [placeStrength, strength, postfixBp, argBp, bodyBp] <;> try omega
    · rename_i g o
      cases h : unLevel o with
      | none => simp
      | some k => have := unLevel_le h; simp; omega
    · rename_i l g o
      have := rbp_le o; omega

/-- Closed text is safe everywhere. -/
theorem ClosedText.keeps {z : Zip} {c s} {p : Node} {ts} (h : ClosedText c) (hp : Parses ts p) (hz : z.prog = p) (he : isExpr z.e = true) :
    KeepsStructure ⟨z, c, s⟩ := by
  obtain ⟨n, h1, h2, h3, h4, h5, h6⟩ := h
  exact keeps_of hp hz he h1 h6 (h2 _) (fun o _ hl => Nat.lt_of_lt_of_le hl (by rw [h4]; exact rp_le _)) (fun _ => by rw [h4]; decide) (fun _ => h5)
    (Nat.le_trans (placeStrength_lt _) h3)

/-- Nothing is weaker than the bodies of functions and loops. -/
theorem rp_ge {e} : ∀ {md}, WF md e → bodyBp ≤ rp e := by
  have hf : ∀ o, bodyBp ≤ follow o := by intro o; cases o <;> simp [follow, nonAssoc, rbp, rightAssoc, level, bodyBp]
  induction e with
  | un g o e ih =>
    intro md hw
    obtain ⟨_, h, k, hk, _⟩ := hw
    have := ih h
    have h2 : 6 ≤ k := by cases o <;> simp [unLevel] at hk <;> omega
    simp only [rp, hk, Option.getD]
    unfold bodyBp at *; omega
  | bin l g o r _ ihr => intro md hw; have := ihr hw.2.2.2.1; have := hf o; simp only [rp]; omega
  | func g la g2 ps g3 b _ ihb => intro md hw; have := ihb hw.2.2.2.2.1; simp only [rp]; omega
  | ifE g g2 c g3 t _ iht => intro md hw; have := iht hw.2.2.2.2.1; simp only [rp]; omega
  | ifElse g g2 c g3 t g4 e _ _ ihe => intro md hw; have := ihe hw.2.2.2.2.2.2.2.2.2.1; simp only [rp]; omega
  | whileE g g2 c g3 t _ iht => intro md hw; have := iht hw.2.2.2.2.1; simp only [rp]; omega
  | forE g g2 gv v gi c g3 t _ iht => intro md hw; have := iht hw.2.2.2.2.1; simp only [rp]; omega
  | repE g t iht => intro md hw; have := iht hw.2.1; simp only [rp]; omega
  | _ => intro md hw; exact show bodyBp ≤ topBp by decide

theorem openIf_rp {e} (h : openIf e = true) : rp e ≤ bodyBp := by
  induction e <;> simp only [openIf] at h <;> simp only [rp] <;> first | (cases h; done) | omega | skip
  all_goals (rename_i ih; have := ih h; omega)

theorem follow_le_rbp (o : Op) : follow o ≤ rbp o := by
  unfold follow; split
  · unfold rbp; split <;> omega
  · exact Nat.le_refl _

theorem roomOp_fits {md f e e0 k} (he : isExpr e = true) (h0 : isExpr e0 = true) (hw : WF md (f.fill e)) (hw0 : WF (inner md f) e0)
    (hr : argBp ≤ k ∧ roomOp f k) (hl : k ≤ lp e0) (hrp : k ≤ rp e0) (hg : (headGap (toks e)).nl = true → (headGap (toks e0)).nl = true) :
    Fits md (f.fill e) (f.fill e0) := by
  obtain ⟨hk, hr⟩ := hr
  have hoi : openIf e0 = false := by
    cases ho : openIf e0 with
    | false => rfl
    | true => have := openIf_rp ho; unfold argBp bodyBp at *; omega
  have hb : bodyBp ≤ k := Nat.le_trans (by decide) hk
  have hne : toks e ≠ [] := expr_toks he (WF.at hw)
  have hne0 : toks e0 ≠ [] := expr_toks h0 hw0
  constructor
  case expr => cases f <;> rfl
  case stmts => cases f <;> rfl
  case args => cases f <;> rfl
  case arg => cases f <;> rfl
  case hole => cases f <;> simp [Frame.fill]
  case snil => cases f <;> simp [Frame.fill]
  case ne => intro h; rw [toks_fill] at h; simp [hne] at h
  case ne' => intro h; rw [toks_fill] at h; simp [hne0] at h
  case gap =>
    rw [toks_fill, toks_fill]
    by_cases hbf : f.before = []
    · simp only [hbf, List.nil_append]; rw [headGap_append hne, headGap_append hne0]; exact hg
    · rw [List.append_assoc, headGap_append hbf, List.append_assoc, headGap_append hbf]; exact id
  case openIf =>
    intro h
    cases f <;> simp only [Frame.fill, Spec.openIf] at h ⊢ <;> first | exact h | exact hoi
  case op =>
    intro o ho h
    cases f <;> simp only [Frame.fill, rp] at h ⊢ <;> first | exact h | skip
    case un g o' => simp only [roomOp] at hr; omega
    case binR l g o' => simp only [roomOp] at hr; have := follow_le_rbp o'; omega
    all_goals omega
  case post =>
    intro h
    cases f <;> simp only [Frame.fill, rp] at h ⊢ <;> first | exact h | skip
    case un g o' => simp only [roomOp] at hr; omega
    case binR l g o' => simp only [roomOp] at hr; have := follow_le_rbp o'; omega
    all_goals (unfold bodyBp postfixBp at *; omega)
  case wf =>
    have hw1 := WF.at hw
    cases f <;> simp only [Frame.fill, WF, inner, roomOp] at hw hw0 hr ⊢
    case un => obtain ⟨a, b, k', hk', c⟩ := hw; rw [hk'] at hr; exact ⟨h0, hw0, k', hk', Nat.le_trans hr hl⟩
    case binL => exact ⟨h0, hw.2.1, hw0, hw.2.2.2.1, hw.2.2.2.2.1, hw.2.2.2.2.2.1, Nat.lt_of_lt_of_le hr hrp, hw.2.2.2.2.2.2.2⟩
    case binR => exact ⟨hw.1, h0, hw.2.2.1, hw0, hw.2.2.2.2.1, hw.2.2.2.2.2.1, hw.2.2.2.2.2.2.1, Nat.le_trans hr hl⟩
    case named => exact ⟨hw.1, Or.inr ⟨h0, hw0, Nat.le_trans hk hl⟩⟩
    case paren => exact ⟨h0, hw0⟩
    case braces => rw [show isStmts e = false by revert he; cases e <;> simp [isExpr, isStmts]] at hw; cases hw.1
    case callA => exact ⟨hw.1, hw.2.1, hw.2.2.1, hw.2.2.2.1, isArgs_of_isArg (isArg_of_isExpr h0), hw0, Nat.le_trans hk hl⟩
    case funcP => exact ⟨isArgs_of_isArg (isArg_of_isExpr h0), hw0, Nat.le_trans hk hl, hw.2.2.2⟩
    case funcB => exact ⟨hw.1, hw.2.1, hw.2.2.1, h0, hw0, Nat.le_trans hb hl⟩
    case ifC => exact ⟨h0, hw0, Nat.le_trans hk hl, hw.2.2.2⟩
    case ifT => exact ⟨hw.1, hw.2.1, hw.2.2.1, h0, hw0, Nat.le_trans hb hl⟩
    case ieC => exact ⟨h0, hw0, Nat.le_trans hk hl, hw.2.2.2⟩
    case ieT => exact ⟨hw.1, hw.2.1, hw.2.2.1, h0, hw0, Nat.le_trans hb hl, hoi, hw.2.2.2.2.2.2.2⟩
    case ieE => exact ⟨hw.1, hw.2.1, hw.2.2.1, hw.2.2.2.1, hw.2.2.2.2.1, hw.2.2.2.2.2.1, hw.2.2.2.2.2.2.1, hw.2.2.2.2.2.2.2.1, h0, hw0, Nat.le_trans hb hl⟩
    case whileC => exact ⟨h0, hw0, Nat.le_trans hk hl, hw.2.2.2⟩
    case whileB => exact ⟨hw.1, hw.2.1, hw.2.2.1, h0, hw0, Nat.le_trans hb hl⟩
    case forS => exact ⟨h0, hw0, Nat.le_trans hk hl, hw.2.2.2⟩
    case forB => exact ⟨hw.1, hw.2.1, hw.2.2.1, h0, hw0, Nat.le_trans hb hl⟩
    case repE => exact ⟨h0, hw0, Nat.le_trans hb hl⟩
    case commaA => exact ⟨isArg_of_isExpr h0, hw0, Nat.le_trans hk hl, hw.2.2.2⟩
    case commaR => exact ⟨hw.1, hw.2.1, hw.2.2.1, isArgs_of_isArg (isArg_of_isExpr h0), hw0, Nat.le_trans hk hl⟩
    case sconsE => exact ⟨h0, hw0, hw.2.2⟩
    case sconsR => rw [show isStmts e = false by revert he; cases e <;> simp [isExpr, isStmts]] at hw; cases hw.2.2.1

/-- Where there is room, an expression that begins and ends with operators of strength `k` can be put. -/
theorem room_fits {md f e e0 k} (he : isExpr e = true) (h0 : isExpr e0 = true) (hw : WF md (f.fill e)) (hw0 : WF (inner md f) e0)
    (hr : roomIn f k) (hl : k ≤ lp e0) (hrp : k ≤ rp e0) (hg : (headGap (toks e)).nl = true → (headGap (toks e0)).nl = true) :
    Fits md (f.fill e) (f.fill e0) := by
  have hne : toks e ≠ [] := expr_toks he (WF.at hw)
  have hne0 : toks e0 ≠ [] := expr_toks h0 hw0
  unfold roomIn at hr
  split at hr
  · next semis rest =>
    exact
      { expr := rfl
        stmts := rfl
        args := rfl
        arg := rfl
        hole := (by simp [Frame.fill])
        snil := (by simp [Frame.fill])
        wf := ⟨h0, hw0, hw.2.2⟩
        op := fun _ _ h => h
        post := fun h => h
        openIf := fun h => h
        ne := fun h => (by simp [Frame.fill, toks, hne] at h)
        ne' := fun h => (by simp [Frame.fill, toks, hne0] at h)
        gap := (by simp only [Frame.fill, toks, List.append_assoc]; rw [headGap_append hne, headGap_append hne0]; exact hg) }
  · next g g2 =>
    exact
      { expr := rfl
        stmts := rfl
        args := rfl
        arg := rfl
        hole := (by simp [Frame.fill])
        snil := (by simp [Frame.fill])
        wf := ⟨h0, hw0⟩
        op := fun _ _ h => h
        post := fun h => h
        openIf := fun h => h
        ne := fun h => (by simp [Frame.fill, toks] at h)
        ne' := fun h => (by simp [Frame.fill, toks] at h)
        gap := fun h => h }
  · exact roomOp_fits he h0 hw hw0 hr hl hrp hg

/-- Replacing an expression, where there is room. -/
theorem keeps_room {z : Zip} {c s e0 k} {p : Node} {ts} (hp : Parses ts p) (hz : z.prog = p) (he : isExpr z.e = true)
    (h0 : isExpr e0 = true) (hc : toks e0 = c) (hw : WF (modeAt z.fs) e0) (hr : room z.fs k) (hl : k ≤ lp e0) (hrp : k ≤ rp e0) :
    KeepsStructure ⟨z, c, s⟩ := by
  subst hz
  obtain ⟨fs, e⟩ := z
  cases fs with
  | nil => exact absurd hr (by simp [room])
  | cons f fs =>
    simp only [room] at hr he hw
    obtain ⟨h, h1, h2⟩ := joinHead_eq (headGap (toks e)) c
    have hwp := WF_plug (fs := fs) (e := f.fill e) hp.2.1
    have hne := expr_toks h0 hw
    have ht : toks (setGap h e0) = setHead h c := by rw [setGap_toks (isArg_of_isExpr h0) hw, hc]
    have hx : isExpr (setGap h e0) = true := by rw [setGap_isExpr]; exact h0
    have fits : Fits (modeAt fs) (f.fill e) (f.fill (setGap h e0)) := by
      refine room_fits he hx hwp (setGap_wf hw) hr (by rw [setGap_lp]; exact hl) (by rw [setGap_rp]; exact hrp) fun hg => ?_
      have := h2 hg (hc ▸ hne)
      rw [ht]; subst hc; revert hne; cases toks e0 <;> simp [setHead, headGap, this]
    refine ⟨setGap h e0, hx, by rw [ht, h1], ?_⟩
    have hs : placeStrength fs ≤ lp (f.fill (setGap h e0)) := by
      refine Nat.le_trans (placeStrength_le (fs := fs) (e := f.fill e) hp.2.1) ?_
      have hl' : k ≤ lp (setGap h e0) := by rw [setGap_lp]; exact hl
      cases f <;> simp only [Frame.fill, lp, roomIn, roomOp] at hr ⊢ <;> first | omega | exact hr.2.elim
    have := fits.parses hs hp
    unfold edited
    simp only [beforeToks, afterToks, plug] at *
    rw [h1, ← ht]
    rw [toks_fill] at this
    simpa using this
end Jarl
