import Verif.Spec.Place
import Verif.Lemmas.RGrammar
/-!
# Lemmas: more line breaks in a program
-/
namespace Jarl
open Spec

/-- In front of which tokens of the node a line break may be added (not exact). -/
def mayBreak : Node → List Bool
  | .atom .. => [true]
  | .paren _ e _ => true :: mayBreak e ++ [true]
  | .braces _ ss _ => true :: mayBreak ss ++ [true]
  | .un _ _ e => true :: mayBreak e
  | .bin l _ _ r => mayBreak l ++ false :: mayBreak r
  | .ext l .. => mayBreak l ++ [false, false]
  | .call f _ _ args _ => mayBreak f ++ false :: mayBreak args ++ [true]
  | .func _ _ _ params _ body => true :: false :: mayBreak params ++ true :: mayBreak body
  | .ifE _ _ c _ t => true :: false :: mayBreak c ++ true :: mayBreak t
  | .ifElse _ _ c _ t _ e => true :: false :: mayBreak c ++ true :: mayBreak t ++ false :: mayBreak e
  | .whileE _ _ c _ b => true :: false :: mayBreak c ++ true :: mayBreak b
  | .forE _ _ _ _ _ seq _ b => true :: false :: true :: true :: mayBreak seq ++ true :: mayBreak b
  | .repE _ b => true :: mayBreak b
  | .hole => []
  | .named _ _ _ _ e => true :: true :: mayBreak e
  | .comma a _ rest => mayBreak a ++ true :: mayBreak rest
  | .snil => []
  | .scons e semis rest => mayBreak e ++ semis.map (fun _ => false) ++ mayBreak rest

theorem mayBreak_length (n : Node) : (mayBreak n).length = (toks n).length := by
  induction n <;> simp_all [mayBreak, toks]

/-- The same tokens, with more line breaks. -/
inductive Regap : List Bool → List Tok → List Tok → Prop
  | nil : Regap [] [] []
  | cons {b bs t t' ts ts'} : t'.k = t.k → (t.gap.nl = true → t'.gap.nl = true) → (t'.gap.nl = true → t.gap.nl = true ∨ b = true) → Regap bs ts ts' →
      Regap (b :: bs) (t :: ts) (t' :: ts')

theorem regap_append {bs cs : List Bool} {ts us out : List Tok} (hl : bs.length = ts.length) (h : Regap (bs ++ cs) (ts ++ us) out) :
    ∃ a b, out = a ++ b ∧ Regap bs ts a ∧ Regap cs us b := by
  induction bs generalizing ts out with
  | nil =>
    cases ts with
    | nil => exact ⟨[], out, rfl, .nil, h⟩
    | cons t ts => cases hl
  | cons b bs ih =>
    cases ts with
    | nil => cases hl
    | cons t ts =>
      cases h with
      | cons h1 h2 h3 h =>
        obtain ⟨a, c, rfl, h4, h5⟩ := ih (by simpa using hl) h
        exact ⟨_ :: a, c, rfl, .cons h1 h2 h3 h4, h5⟩

theorem regap_refl (bs : List Bool) (ts : List Tok) (h : bs.length = ts.length) : Regap bs ts ts := by
  induction bs generalizing ts with
  | nil => cases ts with
    | nil => exact .nil
    | cons t ts => cases h
  | cons b bs ih => cases ts with
    | nil => cases h
    | cons t ts => exact .cons rfl id .inl (ih ts (by simpa using h))

theorem regap_head {bs : List Bool} {ts us : List Tok} (h : Regap bs ts us) : (headGap ts).nl = true → (headGap us).nl = true := by
  cases h with
  | nil => exact id
  | cons _ h2 _ _ => exact h2

theorem ungapped_lp (n : Node) : lp (ungapped n) = lp n := by
  induction n <;> simp_all [ungapped, lp]

theorem ungapped_rp (n : Node) : rp (ungapped n) = rp n := by
  induction n <;> simp_all [ungapped, rp]

theorem ungapped_openIf (n : Node) : openIf (ungapped n) = openIf n := by
  induction n <;> simp_all [ungapped, openIf]

theorem ungapped_isExpr (n : Node) : isExpr (ungapped n) = isExpr n := by cases n <;> rfl

theorem ungapped_isStmts (n : Node) : isStmts (ungapped n) = isStmts n := by cases n <;> rfl

theorem ungapped_isArg (n : Node) : isArg (ungapped n) = isArg n := by cases n <;> rfl

theorem ungapped_isArgs (n : Node) : isArgs (ungapped n) = isArgs n := by cases n <;> rfl

theorem ungapped_hole {n : Node} (h : ungapped n = .hole) : n = .hole := by cases n <;> first | rfl | cases h

theorem ungapped_snil {n : Node} (h : ungapped n = .snil) : n = .snil := by cases n <;> first | rfl | cases h

/-- What only depends on the program without line breaks. -/
theorem same_shape {p q : Node} (h : ungapped q = ungapped p) :
    lp q = lp p ∧ rp q = rp p ∧ openIf q = openIf p ∧ isExpr q = isExpr p ∧ isStmts q = isStmts p ∧ isArg q = isArg p ∧ isArgs q = isArgs p := by
  refine ⟨?_, ?_, ?_, ?_, ?_, ?_, ?_⟩
  · rw [← ungapped_lp q, h, ungapped_lp]
  · rw [← ungapped_rp q, h, ungapped_rp]
  · rw [← ungapped_openIf q, h, ungapped_openIf]
  · rw [← ungapped_isExpr q, h, ungapped_isExpr]
  · rw [← ungapped_isStmts q, h, ungapped_isStmts]
  · rw [← ungapped_isArg q, h, ungapped_isArg]
  · rw [← ungapped_isArgs q, h, ungapped_isArgs]

theorem regap_joins {g g' : Gap} {md : Mode} (h : g'.nl = true → g.nl = true ∨ false = true) (hj : joins md g) : joins md g' := by
  rcases hj with hj | hj
  · exact .inl hj
  · refine .inr ?_
    cases hg : g'.nl with
    | false => rfl
    | true => rcases h hg with h | h
              · rw [hj] at h; cases h
              · cases h

theorem regap_joinsElse {g g' : Gap} {md : Mode} (h : g'.nl = true → g.nl = true ∨ false = true) (hj : joinsElse md g) : joinsElse md g' := by
  rcases hj with hj | hj
  · exact .inl hj
  · refine .inr ?_
    cases hg : g'.nl with
    | false => rfl
    | true => rcases h hg with h | h
              · rw [hj] at h; cases h
              · cases h

theorem regap_one {bs : List Bool} {b : Bool} {t : Tok} {ts out : List Tok} (h : Regap (b :: bs) (t :: ts) out) :
    ∃ g out', out = ⟨g, t.k⟩ :: out' ∧ (g.nl = true → t.gap.nl = true ∨ b = true) ∧ (t.gap.nl = true → g.nl = true) ∧ Regap bs ts out' := by
  cases h with
  | @cons _ _ _ t' _ ts' h1 h2 h3 h4 =>
    obtain ⟨g, k⟩ := t'
    cases h1
    exact ⟨g, ts', rfl, h3, h2, h4⟩

theorem regap_end {b : Bool} {t : Tok} {out : List Tok} (h : Regap [b] [t] out) : ∃ g, out = [⟨g, t.k⟩] := by
  obtain ⟨g, o, rfl, _, _, h⟩ := regap_one h
  cases h
  exact ⟨g, rfl⟩

theorem regap_semis {gs : List Gap} {out : List Tok} (h : Regap (gs.map fun _ => false) (gs.map fun g => ⟨g, .semi⟩) out) :
    ∃ gs' : List Gap, out = gs'.map (fun g => ⟨g, .semi⟩) ∧ gs'.length = gs.length := by
  induction gs generalizing out with
  | nil => cases h; exact ⟨[], rfl, rfl⟩
  | cons g gs ih =>
    obtain ⟨g', o, rfl, _, _, h⟩ := regap_one h
    obtain ⟨gs', rfl, h2⟩ := ih h
    exact ⟨g' :: gs', rfl, by simp [h2]⟩

/-- With more line breaks at such places the tokens are read as the same program. -/
theorem regap_node (n : Node) : ∀ (md : Mode) (out : List Tok), WF md n → Regap (mayBreak n) (toks n) out → ∃ m, toks m = out ∧ ungapped m = ungapped n ∧ WF md m := by
  induction n with
  | atom g k s =>
    intro md out hw h
    obtain ⟨g', rfl⟩ := regap_end h
    exact ⟨.atom g' k s, rfl, rfl, trivial⟩
  | paren g e g2 ihe =>
    intro md out hw h
    obtain ⟨ga, o, rfl, _, _, h⟩ := regap_one h
    obtain ⟨a, b, rfl, h1, h2⟩ := regap_append (mayBreak_length e) h
    obtain ⟨gb, rfl⟩ := regap_end h2
    obtain ⟨e', rfl, s1, w1⟩ := ihe .free _ hw.2 h1
    exact ⟨.paren ga e' gb, rfl, by simp [ungapped, s1], by rw [(same_shape s1).2.2.2.1]; exact hw.1, w1⟩
  | braces g e g2 ihe =>
    intro md out hw h
    obtain ⟨ga, o, rfl, _, _, h⟩ := regap_one h
    obtain ⟨a, b, rfl, h1, h2⟩ := regap_append (mayBreak_length e) h
    obtain ⟨gb, rfl⟩ := regap_end h2
    obtain ⟨e', rfl, s1, w1⟩ := ihe .brace _ hw.2 h1
    exact ⟨.braces ga e' gb, rfl, by simp [ungapped, s1], by rw [(same_shape s1).2.2.2.2.1]; exact hw.1, w1⟩
  | un g o e ihe =>
    intro md out hw h
    obtain ⟨ga, o', rfl, _, _, h⟩ := regap_one h
    obtain ⟨e', rfl, s1, w1⟩ := ihe md _ hw.2.1 h
    obtain ⟨a1, _, _, a4, _⟩ := same_shape s1
    exact ⟨.un ga o e', rfl, by simp [ungapped, s1], by rw [a4]; exact hw.1, w1, by rw [a1]; exact hw.2.2⟩
  | bin l g o r ihl ihr =>
    intro md out hw h
    obtain ⟨x, y, rfl, h1, h2⟩ := regap_append (mayBreak_length l) h
    obtain ⟨ga, o', rfl, hg, _, h2⟩ := regap_one h2
    obtain ⟨w1, w2, w3, w4, w5, w6, w7, w8⟩ := hw
    obtain ⟨l', rfl, s1, v1⟩ := ihl md _ w3 h1
    obtain ⟨r', rfl, s2, v2⟩ := ihr md _ w4 h2
    obtain ⟨_, b2, _, b4, _⟩ := same_shape s1
    obtain ⟨c1, _, _, c4, _⟩ := same_shape s2
    exact ⟨.bin l' ga o r', rfl, by simp [ungapped, s1, s2], by rw [b4]; exact w1, by rw [c4]; exact w2, v1, v2, w5, regap_joins hg w6, by rw [b2]; exact w7, by rw [c1]; exact w8⟩
  | ext l g slot g2 k s ihl =>
    intro md out hw h
    obtain ⟨x, y, rfl, h1, h2⟩ := regap_append (mayBreak_length l) h
    obtain ⟨ga, o', rfl, hg, _, h2⟩ := regap_one h2
    obtain ⟨gb, rfl⟩ := regap_end h2
    obtain ⟨w1, w3, w6, w7⟩ := hw
    obtain ⟨l', rfl, s1, v1⟩ := ihl md _ w3 h1
    obtain ⟨_, b2, _, b4, _⟩ := same_shape s1
    exact ⟨.ext l' ga slot gb k s, rfl, by simp [ungapped, s1], by rw [b4]; exact w1, v1, regap_joins hg w6, by rw [b2]; exact w7⟩
  | call f g b args g2 ihf iha =>
    intro md out hw h
    simp only [mayBreak, toks, List.append_assoc] at h
    obtain ⟨x, y, rfl, h1, h2⟩ := regap_append (mayBreak_length f) h
    obtain ⟨ga, o', rfl, hg, _, h2⟩ := regap_one h2
    obtain ⟨x, y, rfl, h4, h3⟩ := regap_append (mayBreak_length args) h2
    obtain ⟨gb, rfl⟩ := regap_end h3
    obtain ⟨w1, w2, w3, w4, w5, w6, w7⟩ := hw
    obtain ⟨f', rfl, s1, v1⟩ := ihf md _ w2 h1
    obtain ⟨a', rfl, s2, v2⟩ := iha .free _ w6 h4
    obtain ⟨_, b2, _, b4, _⟩ := same_shape s1
    obtain ⟨c1, _, _, _, _, _, c7⟩ := same_shape s2
    exact ⟨.call f' ga b a' gb, by simp [toks], by simp [ungapped, s1, s2], by rw [b4]; exact w1, v1, regap_joins hg w3, by rw [b2]; exact w4, by rw [c7]; exact w5, v2, by rw [c1]; exact w7⟩
  | func g la g2 params g3 body ihp ihb =>
    intro md out hw h
    simp only [mayBreak, toks, List.append_assoc] at h
    obtain ⟨ga, o', rfl, _, _, h⟩ := regap_one h
    obtain ⟨gb, o', rfl, _, _, h⟩ := regap_one h
    obtain ⟨x, y, rfl, h2, h3⟩ := regap_append (mayBreak_length params) h
    obtain ⟨gc, o', rfl, _, _, h3⟩ := regap_one h3
    obtain ⟨w1, w2, w3, w4, w5, w6⟩ := hw
    obtain ⟨p', rfl, s1, v1⟩ := ihp .free _ w2 h2
    obtain ⟨b', rfl, s2, v2⟩ := ihb md _ w5 h3
    obtain ⟨b1, _, _, _, _, _, b7⟩ := same_shape s1
    obtain ⟨c1, _, _, c4, _⟩ := same_shape s2
    exact ⟨.func ga la gb p' gc b', by simp [toks], by simp [ungapped, s1, s2], by rw [b7]; exact w1, v1, by rw [b1]; exact w3, by rw [c4]; exact w4, v2, by rw [c1]; exact w6⟩
  | ifE g g2 c g3 t ihc iht =>
    intro md out hw h
    simp only [mayBreak, toks, List.append_assoc] at h
    obtain ⟨ga, o', rfl, _, _, h⟩ := regap_one h
    obtain ⟨gb, o', rfl, _, _, h⟩ := regap_one h
    obtain ⟨x, y, rfl, h2, h3⟩ := regap_append (mayBreak_length c) h
    obtain ⟨gc, o', rfl, _, _, h3⟩ := regap_one h3
    obtain ⟨w1, w2, w3, w4, w5, w6⟩ := hw
    obtain ⟨p', rfl, s1, v1⟩ := ihc .free _ w2 h2
    obtain ⟨b', rfl, s2, v2⟩ := iht md _ w5 h3
    obtain ⟨b1, _, _, b4, _⟩ := same_shape s1
    obtain ⟨c1, _, _, c4, _⟩ := same_shape s2
    exact ⟨.ifE ga gb p' gc b', by simp [toks], by simp [ungapped, s1, s2], by rw [b4]; exact w1, v1, by rw [b1]; exact w3, by rw [c4]; exact w4, v2, by rw [c1]; exact w6⟩
  | ifElse g g2 c g3 t g4 e ihc iht ihe =>
    intro md out hw h
    simp only [mayBreak, toks, List.append_assoc] at h
    obtain ⟨ga, o', rfl, _, _, h⟩ := regap_one h
    obtain ⟨gb, o', rfl, _, _, h⟩ := regap_one h
    obtain ⟨x, y, rfl, h2, h3⟩ := regap_append (mayBreak_length c) h
    obtain ⟨gc, o', rfl, _, _, h3⟩ := regap_one h3
    obtain ⟨x, y, rfl, h5, h4⟩ := regap_append (mayBreak_length t) h3
    obtain ⟨gd, o', rfl, hg, _, h4⟩ := regap_one h4
    obtain ⟨w1, w2, w3, w4, w5, w6, w7, w8, w9, w10, w11⟩ := hw
    obtain ⟨p', rfl, s1, v1⟩ := ihc .free _ w2 h2
    obtain ⟨b', rfl, s2, v2⟩ := iht md _ w5 h5
    obtain ⟨e', rfl, s3, v3⟩ := ihe md _ w10 h4
    obtain ⟨b1, _, _, b4, _⟩ := same_shape s1
    obtain ⟨c1, _, c3, c4, _⟩ := same_shape s2
    obtain ⟨d1, _, _, d4, _⟩ := same_shape s3
    exact ⟨.ifElse ga gb p' gc b' gd e', by simp [toks], by simp [ungapped, s1, s2, s3], by rw [b4]; exact w1, v1, by rw [b1]; exact w3, by rw [c4]; exact w4, v2, by rw [c1]; exact w6,
      by rw [c3]; exact w7, regap_joinsElse hg w8, by rw [d4]; exact w9, v3, by rw [d1]; exact w11⟩
  | whileE g g2 c g3 t ihc iht =>
    intro md out hw h
    simp only [mayBreak, toks, List.append_assoc] at h
    obtain ⟨ga, o', rfl, _, _, h⟩ := regap_one h
    obtain ⟨gb, o', rfl, _, _, h⟩ := regap_one h
    obtain ⟨x, y, rfl, h2, h3⟩ := regap_append (mayBreak_length c) h
    obtain ⟨gc, o', rfl, _, _, h3⟩ := regap_one h3
    obtain ⟨w1, w2, w3, w4, w5, w6⟩ := hw
    obtain ⟨p', rfl, s1, v1⟩ := ihc .free _ w2 h2
    obtain ⟨b', rfl, s2, v2⟩ := iht md _ w5 h3
    obtain ⟨b1, _, _, b4, _⟩ := same_shape s1
    obtain ⟨c1, _, _, c4, _⟩ := same_shape s2
    exact ⟨.whileE ga gb p' gc b', by simp [toks], by simp [ungapped, s1, s2], by rw [b4]; exact w1, v1, by rw [b1]; exact w3, by rw [c4]; exact w4, v2, by rw [c1]; exact w6⟩
  | forE g g2 gv v gi seq g3 b ihs ihb =>
    intro md out hw h
    simp only [mayBreak, toks, List.append_assoc] at h
    obtain ⟨ga, o', rfl, _, _, h⟩ := regap_one h
    obtain ⟨gb, o', rfl, _, _, h⟩ := regap_one h
    obtain ⟨gv', o', rfl, _, _, h⟩ := regap_one h
    obtain ⟨gi', o', rfl, _, _, h⟩ := regap_one h
    obtain ⟨x, y, rfl, h2, h3⟩ := regap_append (mayBreak_length seq) h
    obtain ⟨gc, o', rfl, _, _, h3⟩ := regap_one h3
    obtain ⟨w1, w2, w3, w4, w5, w6⟩ := hw
    obtain ⟨p', rfl, s1, v1⟩ := ihs .free _ w2 h2
    obtain ⟨b', rfl, s2, v2⟩ := ihb md _ w5 h3
    obtain ⟨b1, _, _, b4, _⟩ := same_shape s1
    obtain ⟨c1, _, _, c4, _⟩ := same_shape s2
    exact ⟨.forE ga gb gv' v gi' p' gc b', by simp [toks], by simp [ungapped, s1, s2], by rw [b4]; exact w1, v1, by rw [b1]; exact w3, by rw [c4]; exact w4, v2, by rw [c1]; exact w6⟩
  | repE g b ihb =>
    intro md out hw h
    obtain ⟨ga, o', rfl, _, _, h⟩ := regap_one h
    obtain ⟨e', rfl, s1, w1⟩ := ihb md _ hw.2.1 h
    obtain ⟨a1, _, _, a4, _⟩ := same_shape s1
    exact ⟨.repE ga e', rfl, by simp [ungapped, s1], by rw [a4]; exact hw.1, w1, by rw [a1]; exact hw.2.2⟩
  | hole =>
    intro md out _ h
    cases h
    exact ⟨.hole, rfl, rfl, trivial⟩
  | named g k s g2 e ihe =>
    intro md out hw h
    obtain ⟨ga, o', rfl, _, _, h⟩ := regap_one h
    obtain ⟨gb, o', rfl, _, _, h⟩ := regap_one h
    obtain ⟨w1, w2⟩ := hw
    rcases w2 with rfl | ⟨w2, w3, w4⟩
    · cases h
      exact ⟨.named ga k s gb .hole, rfl, rfl, w1, .inl rfl⟩
    · obtain ⟨e', rfl, s1, v1⟩ := ihe .free _ w3 h
      obtain ⟨a1, _, _, a4, _⟩ := same_shape s1
      exact ⟨.named ga k s gb e', rfl, by simp [ungapped, s1], w1, .inr ⟨by rw [a4]; exact w2, v1, by rw [a1]; exact w4⟩⟩
  | comma a g rest iha ihr =>
    intro md out hw h
    obtain ⟨x, y, rfl, h1, h2⟩ := regap_append (mayBreak_length a) h
    obtain ⟨ga, o', rfl, _, _, h2⟩ := regap_one h2
    obtain ⟨w1, w2, w3, w4, w5, w6⟩ := hw
    obtain ⟨l', rfl, s1, v1⟩ := iha .free _ w2 h1
    obtain ⟨r', rfl, s2, v2⟩ := ihr .free _ w5 h2
    obtain ⟨b1, _, _, _, _, b6, _⟩ := same_shape s1
    obtain ⟨c1, _, _, _, _, _, c7⟩ := same_shape s2
    exact ⟨.comma l' ga r', rfl, by simp [ungapped, s1, s2], by rw [b6]; exact w1, v1, by rw [b1]; exact w3, by rw [c7]; exact w4, v2, by rw [c1]; exact w6⟩
  | snil =>
    intro md out _ h
    cases h
    exact ⟨.snil, rfl, rfl, trivial⟩
  | scons e semis rest ihe ihr =>
    intro md out hw h
    simp only [mayBreak, toks, List.append_assoc] at h
    obtain ⟨x, y, rfl, h1, h2⟩ := regap_append (mayBreak_length e) h
    obtain ⟨y, z, rfl, h2, h3⟩ := regap_append (by simp) h2
    obtain ⟨gs, rfl, hgs⟩ := regap_semis h2
    obtain ⟨w1, w2, w3, w4, w5⟩ := hw
    obtain ⟨l', rfl, s1, v1⟩ := ihe md _ w2 h1
    have hh := regap_head h3
    obtain ⟨r', rfl, s2, v2⟩ := ihr md _ w4 h3
    obtain ⟨_, _, _, b4, _⟩ := same_shape s1
    obtain ⟨_, _, _, _, c5, _⟩ := same_shape s2
    refine ⟨.scons l' gs r', by simp [toks], ?_, by rw [b4]; exact w1, v1, by rw [c5]; exact w3, v2, fun hr hs => hh (w5 ?_ ?_)⟩
    · simp only [ungapped, s1, s2, Node.scons.injEq, true_and, and_true]
      apply List.ext_getElem
      · simp [hgs]
      · intros; simp
    · rintro rfl; exact hr (ungapped_snil s2)
    · subst hs; exact List.eq_nil_of_length_eq_zero hgs.symm

/-- An expression, or an argument or parameter with a name. -/
def startsCode : Node → Bool
  | .named .. => true
  | n => isExpr n

/-- A line break may be added in front of every expression. -/
theorem mayBreak_head (n : Node) (md : Mode) (hw : WF md n) (h : startsCode n = true) : (mayBreak n).head? = some true := by
  induction n generalizing md with
  | bin l g o r ihl ihr =>
    have := ihl md hw.2.2.1 (by have := hw.1; cases l <;> first | rfl | cases this)
    simp [mayBreak, List.head?_append, this]
  | ext l g slot g2 k s ihl =>
    have := ihl md hw.2.1 (by have := hw.1; cases l <;> first | rfl | cases this)
    simp [mayBreak, List.head?_append, this]
  | call f g b args g2 ihf iha =>
    have := ihf md hw.2.1 (by have := hw.1; cases f <;> first | rfl | cases this)
    simp [mayBreak, List.head?_append, this]
  | _ => first | rfl | cases h

/-- The flags of a program, seen from a place in it. -/
theorem mayBreak_plug (fs : List Frame) (e : Node) : ∃ x y, mayBreak (plug fs e) = x ++ mayBreak e ++ y ∧ x.length = (beforeToks fs).length := by
  induction fs generalizing e with
  | nil => exact ⟨[], [], by simp [plug], rfl⟩
  | cons f fs ih =>
    obtain ⟨x, y, h1, h2⟩ := ih (f.fill e)
    have : ∃ x' y', mayBreak (f.fill e) = x' ++ mayBreak e ++ y' ∧ x'.length = f.before.length := by
      cases f <;> simp only [Frame.fill, Frame.before, mayBreak, List.append_assoc]
      case paren => exact ⟨[true], _, rfl, rfl⟩
      case braces => exact ⟨[true], _, rfl, rfl⟩
      case un => exact ⟨[true], [], by simp, rfl⟩
      case binL => exact ⟨[], _, rfl, rfl⟩
      case binR l g o => exact ⟨mayBreak l ++ [false], [], by simp, by simp [mayBreak_length]⟩
      case ext => exact ⟨[], _, rfl, rfl⟩
      case callF => exact ⟨[], _, rfl, rfl⟩
      case callA f g b g2 => exact ⟨mayBreak f ++ [false], [true], by simp, by simp [mayBreak_length]⟩
      case funcP => exact ⟨[true, false], _, rfl, rfl⟩
      case funcB g la g2 p g3 => exact ⟨true :: false :: mayBreak p ++ [true], [], by simp, by simp [mayBreak_length]⟩
      case ifC => exact ⟨[true, false], _, rfl, rfl⟩
      case ifT g g2 c g3 => exact ⟨true :: false :: mayBreak c ++ [true], [], by simp, by simp [mayBreak_length]⟩
      case ieC => exact ⟨[true, false], _, rfl, rfl⟩
      case ieT g g2 c g3 g4 e' => exact ⟨true :: false :: mayBreak c ++ [true], false :: mayBreak e', by simp, by simp [mayBreak_length]⟩
      case ieE g g2 c g3 t g4 => exact ⟨true :: false :: mayBreak c ++ true :: mayBreak t ++ [false], [], by simp, by simp [mayBreak_length]⟩
      case whileC => exact ⟨[true, false], _, rfl, rfl⟩
      case whileB g g2 c g3 => exact ⟨true :: false :: mayBreak c ++ [true], [], by simp, by simp [mayBreak_length]⟩
      case forS => exact ⟨[true, false, true, true], _, rfl, rfl⟩
      case forB g g2 gv v gi s g3 => exact ⟨true :: false :: true :: true :: mayBreak s ++ [true], [], by simp, by simp [mayBreak_length]⟩
      case repE => exact ⟨[true], [], by simp, rfl⟩
      case named => exact ⟨[true, true], [], by simp, rfl⟩
      case commaA => exact ⟨[], _, rfl, rfl⟩
      case commaR a g => exact ⟨mayBreak a ++ [true], [], by simp, by simp [mayBreak_length]⟩
      case sconsE => exact ⟨[], _, rfl, rfl⟩
      case sconsR e' semis => exact ⟨mayBreak e' ++ semis.map (fun _ => false), [], by simp, by simp [mayBreak_length]⟩
    obtain ⟨x', y', h3, h4⟩ := this
    refine ⟨x ++ x', y' ++ y, ?_, ?_⟩
    · rw [plug, h1, h3]; simp
    · simp [beforeToks, h2, h4]

end Jarl
