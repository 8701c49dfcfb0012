import Verif.Spec.RPasses
import Verif.Props.RAround
import Verif.Props.RTogether
import Verif.Props.RTextMain
import Verif.Props.RTextExamples
/-!
# Many fixes in larger code

Supports C79.
-/
namespace Jarl
open Spec

theorem path_append (a b : List Frame) : path (a ++ b) = path b ++ path a := by simp [path]

theorem Two.child_ne (t : Two) (x y : Node) : child (t.left y) ≠ child (t.right x) := by cases t <;> simp [Two.left, Two.right, child]

/-- A path leads to one place. -/
theorem place_unique {f1 f2 : List Frame} {e1 e2 : Node} (h : plug f1 e1 = plug f2 e2) (hp : path f1 = path f2) : f1 = f2 ∧ e1 = e2 := by
  have nil : ∀ {i : List Frame}, path i = [] → i = [] := by
    intro i hi
    simpa [path] using hi
  have two : ∀ {ia ib fs : List Frame} {x y : Frame}, path (ia ++ x :: fs) = path (ib ++ y :: fs) → child x = child y := by
    intro ia ib fs x y h
    rw [show x :: fs = [x] ++ fs from rfl, show y :: fs = [y] ++ fs from rfl, path_append, path_append, path_append, path_append, List.append_assoc, List.append_assoc] at h
    have := List.append_cancel_left h
    simp only [path, List.map_cons, List.map_nil, List.reverse_cons, List.reverse_nil, List.nil_append, List.singleton_append, List.cons.injEq] at this
    exact this.1
  cases parts h with
  | inside ia _ _ _ h' =>
    rw [path_append] at hp
    cases nil (List.append_right_eq_self.mp hp)
    exact ⟨rfl, h'⟩
  | around ib _ _ _ h' =>
    rw [path_append] at hp
    cases nil (List.append_right_eq_self.mp hp.symm)
    exact ⟨rfl, h'⟩
  | left ia ib fs _ _ t => exact absurd (two hp) (t.child_ne _ _)
  | right ia ib fs _ _ t => exact absurd (two hp).symm (t.child_ne _ _)

theorem isExpr_fill (f : Frame) (x y : Node) : isExpr (f.fill x) = isExpr (f.fill y) := by cases f <;> rfl

theorem isExpr_plug (fs : List Frame) : ∀ {x y : Node}, isExpr x = isExpr y → isExpr (plug fs x) = isExpr (plug fs y) := by
  induction fs with
  | nil => intro x y h; exact h
  | cons f fs ih => intro x y _; exact ih (isExpr_fill f x y)

theorem plug_snil (fs : List Frame) : ∀ {x : Node}, isExpr x = true → plug fs x ≠ .snil := by
  have fill : ∀ (f : Frame) (x : Node), f.fill x ≠ .snil := by intro f x; cases f <;> simp [Frame.fill]
  have : ∀ (fs : List Frame) (x : Node), x ≠ .snil → plug fs x ≠ .snil := by
    intro fs
    induction fs with
    | nil => intro x h; exact h
    | cons f fs ih => intro x _; exact ih _ (fill f x)
  intro x hx
  refine this fs x ?_
  rintro rfl
  cases hx

/-- Frames, the one like the other but for what is to the right. -/
def SideFr (f f' : Frame) : Prop := f = f' ∨ ∃ t y y', f = Two.left t y ∧ f' = Two.left t y' ∧ y ≠ .snil ∧ (isExpr (core y) = true → isExpr (core y') = true)

inductive SideFrs : List Frame → List Frame → Prop
  | nil : SideFrs [] []
  | cons {f f' fs fs'} : SideFr f f' → SideFrs fs fs' → SideFrs (f :: fs) (f' :: fs')

theorem SideFrs.refl : ∀ fs, SideFrs fs fs
  | [] => .nil
  | _ :: fs => .cons (.inl rfl) (SideFrs.refl fs)

theorem SideFrs.append {a b c d : List Frame} (h : SideFrs a b) (h2 : SideFrs c d) : SideFrs (a ++ c) (b ++ d) := by
  induction h with
  | nil => exact h2
  | cons hf _ ih => exact .cons hf ih

theorem SideFrs.cons_inv {f : Frame} {fs fs' : List Frame} (h : SideFrs (f :: fs) fs') : ∃ f' gs, fs' = f' :: gs ∧ SideFr f f' ∧ SideFrs fs gs := by
  cases h with
  | cons h1 h2 => exact ⟨_, _, rfl, h1, h2⟩

/-- A frame with the place to the right stays. -/
theorem SideFr.right {f f' : Frame} (h : SideFr f f') (hr : ∀ t y, f ≠ Two.left t y) : f' = f := by
  rcases h with rfl | ⟨t, y, _, rfl, _⟩
  · rfl
  · exact absurd rfl (hr t y)

theorem described_frs (args : Bool) (fs : List Frame) : ∀ fs', describedPath args fs = true → SideFrs fs fs' → describedPath args fs' = true := by
  induction args, fs using describedPath.induct with
  | case1 => intro fs' h hf; cases hf; exact h
  | case2 g g2 fs ih =>
    intro fs' h hf
    obtain ⟨f', gs, rfl, h1, hr⟩ := hf.cons_inv
    rcases h1 with rfl | ⟨t, y, y', ha, rfl, hy, hc⟩
    · exact (have hx := ih gs h hr; hx)
    · cases t <;> cases ha
  | case3 g o fs ih =>
    intro fs' h hf
    obtain ⟨f', gs, rfl, h1, hr⟩ := hf.cons_inv
    simp only [describedPath, Bool.and_eq_true] at h
    rcases h1 with rfl | ⟨t, y, y', ha, rfl, hy, hc⟩
    · simp only [describedPath, Bool.and_eq_true]; exact ⟨h.1, ih _ h.2 hr⟩
    · cases t <;> cases ha
  | case4 g o r fs ih =>
    intro fs' h hf
    obtain ⟨f', gs, rfl, h1, hr⟩ := hf.cons_inv
    simp only [describedPath, Bool.and_eq_true] at h
    rcases h1 with rfl | ⟨t, y, y', ha, rfl, hy, hc⟩
    · simp only [describedPath, Bool.and_eq_true]; exact ⟨h.1, ih _ h.2 hr⟩
    · cases t <;> cases ha
      simp only [Two.left, describedPath, Bool.and_eq_true]; exact ⟨h.1, ih _ h.2 hr⟩
  | case5 l g o fs ih =>
    intro fs' h hf
    obtain ⟨f', gs, rfl, h1, hr⟩ := hf.cons_inv
    simp only [describedPath, Bool.and_eq_true] at h
    rcases h1 with rfl | ⟨t, y, y', ha, rfl, hy, hc⟩
    · simp only [describedPath, Bool.and_eq_true]; exact ⟨h.1, ih _ h.2 hr⟩
    · cases t <;> cases ha
  | case6 fs _ _ _ _ ih =>
    intro fs' h hf
    obtain ⟨f', gs, rfl, h1, hr⟩ := hf.cons_inv
    rcases h1 with rfl | ⟨t, y, y', ha, rfl, hy, hc⟩
    · exact (have hx := ih gs h hr; hx)
    · cases t <;> cases ha
      exact (have hx := ih gs h hr; hx)
  | case7 fs _ _ _ _ ih =>
    intro fs' h hf
    obtain ⟨f', gs, rfl, h1, hr⟩ := hf.cons_inv
    rcases h1 with rfl | ⟨t, y, y', ha, rfl, hy, hc⟩
    · exact (have hx := ih gs h hr; hx)
    · cases t <;> cases ha
  | case8 fs _ _ _ _ _ _ ih =>
    intro fs' h hf
    obtain ⟨f', gs, rfl, h1, hr⟩ := hf.cons_inv
    rcases h1 with rfl | ⟨t, y, y', ha, rfl, hy, hc⟩
    · exact (have hx := ih gs h hr; hx)
    · cases t <;> cases ha <;> exact (have hx := ih gs h hr; hx)
  | case9 fs _ _ _ _ _ _ ih =>
    intro fs' h hf
    obtain ⟨f', gs, rfl, h1, hr⟩ := hf.cons_inv
    rcases h1 with rfl | ⟨t, y, y', ha, rfl, hy, hc⟩
    · exact (have hx := ih gs h hr; hx)
    · cases t <;> cases ha
      exact (have hx := ih gs h hr; hx)
  | case10 fs _ _ _ _ _ _ ih =>
    intro fs' h hf
    obtain ⟨f', gs, rfl, h1, hr⟩ := hf.cons_inv
    rcases h1 with rfl | ⟨t, y, y', ha, rfl, hy, hc⟩
    · exact (have hx := ih gs h hr; hx)
    · cases t <;> cases ha
  | case11 semis g g2 fs ih =>
    intro fs' h hf
    obtain ⟨f', gs, rfl, h1, hr0⟩ := hf.cons_inv
    obtain ⟨f2, gs2, rfl, h2, hr⟩ := hr0.cons_inv
    rcases h1 with rfl | ⟨t, y, y', ha, rfl, hy, hc⟩
    · rcases h2 with rfl | ⟨t, y, y', ha, rfl, hy, hc⟩
      · exact (have hx := ih gs2 h hr; hx)
      · cases t <;> cases ha
    · cases t <;> cases ha
      exact absurd rfl hy
  | case12 f g g2 fs ih =>
    intro fs' h hf
    obtain ⟨f', gs, rfl, h1, hr⟩ := hf.cons_inv
    rcases h1 with rfl | ⟨t, y, y', ha, rfl, hy, hc⟩
    · exact (have hx := ih gs h hr; hx)
    · cases t <;> cases ha
  | case13 g i g2 fs ih =>
    intro fs' h hf
    obtain ⟨f', gs, rfl, h1, hr⟩ := hf.cons_inv
    simp only [describedPath, Bool.and_eq_true] at h
    rcases h1 with rfl | ⟨t, y, y', ha, rfl, hy, hc⟩
    · simp only [describedPath, Bool.and_eq_true]; exact ⟨h.1, ih _ h.2 hr⟩
    · cases t <;> cases ha
      simp only [Two.left, describedPath, Bool.and_eq_true]; exact ⟨hc h.1, ih _ h.2 hr⟩
  | case14 fs _ _ _ _ ih =>
    intro fs' h hf
    obtain ⟨f', gs, rfl, h1, hr⟩ := hf.cons_inv
    rcases h1 with rfl | ⟨t, y, y', ha, rfl, hy, hc⟩
    · exact (have hx := ih gs h hr; hx)
    · cases t <;> cases ha
  | case15 args f g g2 fs ih =>
    intro fs' h hf
    obtain ⟨f', gs, rfl, h1, hr⟩ := hf.cons_inv
    rcases h1 with rfl | ⟨t, y, y', ha, rfl, hy, hc⟩
    · simp only [describedPath, Bool.and_eq_true] at h ⊢; exact ⟨h.1, ih _ h.2 hr⟩
    · cases t <;> cases ha
  | case16 args g rest fs ih =>
    intro fs' h hf
    obtain ⟨f', gs, rfl, h1, hr⟩ := hf.cons_inv
    have h' : describedPath true fs = true := by cases args <;> exact h
    rcases h1 with rfl | ⟨t, y, y', ha, rfl, hy, hc⟩
    · cases args <;> exact (have hx := ih _ h' hr; hx)
    · cases t <;> cases ha
      cases args <;> exact (have hx := ih _ h' hr; hx)
  | case17 args l g fs ih =>
    intro fs' h hf
    obtain ⟨f', gs, rfl, h1, hr⟩ := hf.cons_inv
    have h' : describedPath true fs = true := by cases args <;> exact h
    rcases h1 with rfl | ⟨t, y, y', ha, rfl, hy, hc⟩
    · cases args <;> exact (have hx := ih _ h' hr; hx)
    · cases t <;> cases ha
  | case18 => intro fs' h hf; simp [describedPath] at h

/-- The fix, and what the new code computes: what the old code did, where it computed a value. -/
def FixLe (E : Env) (ed : Edit) : Prop :=
  ∃ y, isExpr y = true ∧ WF .free y ∧ toks y = joinHead (headGap (toks ed.z.e)) ed.content ∧ ExprLe E (core ed.z.e) (core y)

theorem FixLe.with {E : Env} {ed : Edit} (h : FixLe E ed) {y : Node} {md} (hy : isExpr y = true) (hw : WF md y) (ht : toks y = joinHead (headGap (toks ed.z.e)) ed.content) :
    ExprLe E (core ed.z.e) (core y) := by
  obtain ⟨x, hx, hwx, htx, hl⟩ := h
  rw [expr_unique hy hx hw hwx (ht.trans htx.symm)]
  exact hl

/-- What one of the fixes of a pass does to the code at the path. -/
theorem one_fix {E : Env} {pl : List Nat} {p c y : Node} {ts : List Tok} {outer : List Frame} {b : Edit} (hp : Parses ts p) (hc : p = plug outer c) (hpl : path outer = pl) (hg : b.z.prog = p)
    (hy : isExpr y = true) (hty : toks y = joinHead (headGap (toks b.z.e)) b.content) (hpy : Parses (edited b) (plug b.z.fs y)) (hin : (FixLe E b ∧ FixInside pl b) ∨ FixElsewhere pl b) :
    ∃ outer' c', plug b.z.fs y = plug outer' c' ∧ path outer' = pl ∧ ResLe (eval E (core c)) (eval E (core c')) := by
  subst hc
  rcases hin with ⟨hl, inner, out, hfs, hpo, hd⟩ | ⟨h1, h2⟩
  · have hg' : plug out (plug inner b.z.e) = plug outer c := by rw [← plug_append, ← hfs]; exact hg
    obtain ⟨rfl, rfl⟩ := place_unique hg' (hpo.trans hpl.symm)
    refine ⟨out, plug inner y, by rw [hfs, plug_append], hpo, ?_⟩
    exact path_le false inner b.z.e y hd (hl.with hy (WF_plug (fs := b.z.fs) hpy.2.1) hty)
  · have hg' : plug outer c = plug b.z.fs b.z.e := hg.symm
    generalize hbf : b.z.fs = bf at *
    generalize b.z.e = be at *
    cases parts hg' with
    | inside ia _ _ _ h' => exact absurd (by rw [← hpl, path_append]; exact List.prefix_append _ _) h2
    | around ib _ _ _ h' => exact absurd (by rw [← hpl, path_append]; exact List.prefix_append _ _) h1
    | left ia ib fs _ _ t =>
      refine ⟨ia ++ t.left (plug ib y) :: fs, c, ?_, ?_, ResLe.refl _⟩
      · simp only [plug_append, plug, t.fill]
      · rw [← hpl]; simp [path, t.child_left (plug ib y) (plug ib be)]
    | right ia ib fs _ _ t =>
      refine ⟨ia ++ t.right (plug ib y) :: fs, c, ?_, ?_, ResLe.refl _⟩
      · simp only [plug_append, plug, ← t.fill]
      · rw [← hpl]; simp [path, t.child_right (plug ib y) (plug ib be)]

/-- The fixes in front are still where they were. -/
theorem inside_after {p y : Node} {pl : List Nat} {ts : List Tok} {a a' b : Edit} (hp : Parses ts p) (ha : GoodFix p a) (hb : GoodFix p b) (hl : (cutOf a).stop ≤ (cutOf b).start)
    (hy : isExpr y = true) (hpy : Parses (edited b) (plug b.z.fs y)) (hpa : a'.z.prog = plug b.z.fs y) (hpath : path a'.z.fs = path a.z.fs) (hin : FixInside pl a) : FixInside pl a' := by
  have hna := goodFix_ne hp ha
  have hnb := goodFix_ne hp hb
  obtain ⟨inner, outer, hfs, hpo, hd⟩ := hin
  obtain ⟨ia, ib, fs, t, ea, eb⟩ := parts_left (ha.1.trans hb.1.symm) hna hnb hl
  have hnew : a'.z.fs = ia ++ t.left (plug ib y) :: fs := by
    refine (place_unique (e1 := a'.z.e) (e2 := a.z.e) ?_ ?_).1
    · show a'.z.prog = _
      rw [hpa, eb]
      simp only [plug_append, plug, t.fill]
    · rw [hpath, ea]; simp [path, t.child_left (plug ib y) (plug ib b.z.e)]
  have hfr : SideFr (t.left (plug ib b.z.e)) (t.left (plug ib y)) := by
    refine .inr ⟨t, _, _, rfl, rfl, plug_snil ib hb.2.1, fun hc => ?_⟩
    have hw : WF .top (plug fs ((t.right (plug ia a.z.e)).fill (plug ib y))) := by
      have := hpy.2.1
      rw [eb, plug_append] at this
      exact this
    have hw2 : WF _ (plug ib y) := WF_plug (fs := t.right (plug ia a.z.e) :: fs) hw
    refine isExpr_core ?_ hw2
    rw [isExpr_plug ib (hy.trans hb.2.1.symm)]
    generalize plug ib b.z.e = n at hc ⊢
    cases n <;> first | rfl | (cases hc; done) | (simp [core] at hc; done)
  rw [hfs] at ea
  rcases List.append_eq_append_iff.mp ea with ⟨k, h1, h2⟩ | ⟨k, h1, h2⟩
  · refine ⟨inner, k ++ t.left (plug ib y) :: fs, by rw [hnew, h1]; simp, ?_, hd⟩
    rw [← hpo, h2]; simp [path, t.child_left (plug ib y) (plug ib b.z.e)]
  · cases k with
    | nil =>
      simp only [List.append_nil, List.nil_append] at h1 h2
      subst h1
      refine ⟨inner, t.left (plug ib y) :: fs, hnew, ?_, hd⟩
      rw [← hpo, ← h2]; simp [path, t.child_left (plug ib y) (plug ib b.z.e)]
    | cons k1 k =>
      simp only [List.cons_append, List.cons.injEq] at h2
      obtain ⟨rfl, rfl⟩ := h2
      subst h1
      refine ⟨ia ++ t.left (plug ib y) :: k, outer, by rw [hnew]; simp, hpo, ?_⟩
      exact described_frs _ _ _ hd ((SideFrs.refl ia).append (.cons hfr (SideFrs.refl k)))

theorem pass_value {E : Env} {pl : List Nat} : ∀ (n : Nat) (eds : List Edit) (p c : Node) (outer : List Frame) (ts out : List Tok), eds.length = n → Parses ts p → p = plug outer c → path outer = pl →
    (∀ ed ∈ eds, GoodFix p ed ∧ ((FixLe E ed ∧ FixInside pl ed) ∨ FixElsewhere pl ed)) → Patched 0 ts (eds.map cutOf) out →
    ∃ q c', Parses out q ∧ CodeAt pl q c' ∧ ResLe (eval E (core c)) (eval E (core c')) := by
  intro n
  induction n with
  | zero =>
    intro eds p c outer ts out hn hp hc hpl _ h
    cases List.eq_nil_of_length_eq_zero hn
    cases h
    exact ⟨p, c, hp, ⟨outer, hc, hpl⟩, ResLe.refl _⟩
  | succ n ih =>
    intro eds p c outer ts out hn hp hc hpl hg h
    rcases List.eq_nil_or_concat eds with rfl | ⟨init, b, rfl⟩
    · cases hn
    rw [List.concat_eq_append] at *
    have hlen : init.length = n := by simpa using hn
    obtain ⟨hgb, hvb⟩ := hg b (by simp)
    obtain ⟨hbp, hbe, y, hy, hty, hpy⟩ := id hgb
    rw [List.map_append] at h
    obtain ⟨pre, old, post, hts, h1, h2, h3, h4⟩ := Patched.last h
    have htb : pre = beforeToks b.z.fs ∧ post = afterToks b.z.fs := by
      have e1 : beforeToks b.z.fs ++ toks b.z.e ++ afterToks b.z.fs = pre ++ old ++ post := by
        rw [← toks_plug, ← hts, ← hp.2.2, ← hbp]; rfl
      simp only [cutOf] at h1 h2
      rw [List.append_assoc, List.append_assoc] at e1
      obtain ⟨e2, e3⟩ := List.append_inj e1 (by omega)
      obtain ⟨_, e4⟩ := List.append_inj e3 (by omega)
      exact ⟨e2.symm, e4.symm⟩
    rw [htb.1, htb.2] at h4
    have hch : ∀ a, ∃ a' : Edit, a ∈ init →
        ((GoodFix (plug b.z.fs y) a' ∧ ((FixLe E a' ∧ FixInside pl a') ∨ FixElsewhere pl a')) ∧ cutOf a' = cutOf a) := by
      intro a
      by_cases ha : a ∈ init
      · have hga := (hg a (by simp [ha])).1
        have hle := h3 _ (List.mem_map_of_mem ha)
        obtain ⟨a', h1, h2, h3, h4, h5, _, _⟩ := goodFix_after hp hga hgb hle hpy
        refine ⟨a', fun _ => ⟨⟨h1, ?_⟩, h2⟩⟩
        rcases (hg a (by simp [ha])).2 with ⟨hl, hin⟩ | he
        · refine .inl ⟨?_, inside_after hp hga hgb hle hy hpy h1.1 h3 hin⟩
          obtain ⟨x, hx, hwx, htx, hle⟩ := hl
          exact ⟨x, hx, hwx, by rw [h4, h5]; exact htx, by rw [h4]; exact hle⟩
        · exact .inr (by unfold FixElsewhere; rw [h3]; exact he)
      · exact ⟨a, fun h => absurd h ha⟩
    obtain ⟨f, hf⟩ := Classical.axiomOfChoice hch
    have hcut : (init.map f).map cutOf = init.map cutOf := by
      rw [List.map_map]; exact List.map_congr_left fun a ha => (hf a ha).2
    obtain ⟨outer', c', hc', hpl', hle⟩ := one_fix hp hc hpl hbp hy hty hpy hvb
    obtain ⟨q, c2, hq, hat, hle2⟩ := ih (init.map f) (plug b.z.fs y) c' outer' (edited b) out (by simp [hlen]) hpy hc' hpl'
      (by intro ed hed; obtain ⟨a, ha, rfl⟩ := List.mem_map.mp hed; exact (hf a ha).1) (by rw [hcut]; exact h4)
    exact ⟨q, c2, hq, hat, fun v hv => hle2 v (hle v hv)⟩

theorem rules_lawful : ∀ q ∈ valueRules, Lawful q.1 q.2.1 q.2.2.1 := by
  simp only [valueRules, List.forall_mem_cons, List.not_mem_nil, false_imp_iff, implies_true, and_true]
  exact ⟨law_anyDuplicated, law_anyIsNa, law_anyIsNa2, law_classIdentical, law_classEquals, law_coalesce, law_comparisonNegation, law_equalsNa, law_fixedRegex, law_isNumeric, law_lengthLevels, law_lengths, law_numericLeadingZero, law_outerNegation, law_redundantEquals, law_redundantIfelse, law_sampleInt, law_seq, law_seq2, law_sortRule, law_stringBoundary, law_trueFalseSymbol, law_unnecessaryNesting, law_whichGrepl⟩

theorem valueFix_le {E : Env} {ts : List Tok} {p : Node} {ed : Edit} (hp : Parses ts p) (hg : GoodFix p ed) (h : ValueFix valueRules E p ed) : FixLe E ed := by
  obtain ⟨q, hq, z, hz, hr, hc, hpi, hcond, hdom⟩ := h
  obtain ⟨_, hbe, y, hy, hty, hpy⟩ := hg
  have hpl : Placed ed y := ⟨hy, hty, hpy⟩
  have hw := WF_plug (fs := ed.z.fs) hpy.2.1
  refine ⟨y, hy, WF_free (isArgs_of_isArg (isArg_of_isExpr hy)) hw, hty, law_expr (rules_lawful q hq ts p z ed y hp hz hr hc hpi hcond hpl), isExpr_core hy hw, ?_⟩
  exact fun v hv => C79_safe_fixes_keep_values_partial q hq ts p z ed y hp hz hr hc hpi hcond hpl E v hdom hv

/-- For every program and every piece of code in it, after any number of passes, each with any number of fixes: those in the code are of these rules, under the conditions of
`C79_safe_fixes_keep_values_partial`, with only described code around them up to that piece; the others are anywhere else. Then the text is a program again, the piece is where it was, and if it computed
a value, it computes the same value. -/
theorem C79_passes_partial (E : Env) (pl : List Nat) (a b : List Tok) (p e : Node) (hp : Parses a p) (he : CodeAt pl p e) (h : ValuePasses valueRules E pl a b) :
    ∃ q e', Parses b q ∧ CodeAt pl q e' ∧ ∀ v, eval E (core e) = .val v → eval E (core e') = .val v := by
  induction h with
  | none => exact ⟨p, e, hp, he, fun _ h => h⟩
  | @more b c p2 eds h hp2 hg hpat ih =>
    obtain ⟨q, e', hq, ⟨outer, hout, hpl⟩, hle⟩ := ih
    cases C50_grammar_unambiguous hp2 hq
    obtain ⟨q2, e2, hq2, hat, hle2⟩ := pass_value (E := E) eds.length eds p2 e' outer b c rfl hp2 hout hpl
      (fun ed hed => ⟨(hg ed hed).1, (hg ed hed).2.imp (fun h => ⟨valueFix_le hp2 (hg ed hed).1 h.1, h.2⟩) id⟩) hpat
    exact ⟨q2, e2, hq2, hat, fun v hv => hle2 v (hle v hv)⟩

/-! ### Files -/

theorem textPass_value {E : Env} {pl : List Nat} {a b : Str} {ds : List Diagnostic} {sk : Bool} {src : Src} {p c : Node} (hc : ReportsValueFixes valueRules E pl a ds)
    (hap : applyFixes (ds.map (·.fix)) a = some (sk, b)) (hr : ReadsAs a src p) (ha : Airy none src.pieces) (hat : CodeAt pl p c) :
    ∃ src' q c', ReadsAs b src' q ∧ Airy none src'.pieces ∧ CodeAt pl q c' ∧ ResLe (eval E (core c)) (eval E (core c')) := by
  obtain ⟨eds, isReal, e1, e2, e3, e4, e5⟩ := hc src p hr
  obtain ⟨outer, hout, hpl⟩ := hat
  obtain ⟨done, _, _, hd, _, _, _, _, _, hrw⟩ := C66_apply_good a src p eds _ isReal hr ha (fun e hm => (e1 e hm).1) e2 e3 e4 e5 hap
  obtain ⟨src', q, h1, h2, _, _, h5⟩ := C66_text a src p done b hr ha (fun e hm => (e1 e (hd.subset hm)).1) hrw
  obtain ⟨q', c', hq', hat', hle⟩ := pass_value (E := E) _ (done.map (·.1)) p c outer src.toks src'.toks rfl hr.2 hout hpl (by
    intro ed hed
    obtain ⟨e, hm, rfl⟩ := List.mem_map.mp hed
    have := e1 e (hd.subset hm)
    exact ⟨this.1.1, this.2.imp (fun h => ⟨valueFix_le hr.2 this.1.1 h.1, h.2⟩) id⟩) h5
  cases C50_grammar_unambiguous h1.2 hq'
  exact ⟨src', q, c', h1, h2, hat', hle⟩

theorem lintFixLoop_value {E : Env} {pl : List Nat} {L : Lints} {pkg : PackageAnalysis} {cfg : Config} {path : Str} {io : Io} (hw : ∀ n, io.writeFails n = none) {a0 : Str}
    (hc : ∀ a ds, FixReached L pkg cfg path a0 a → getChecks L pkg cfg path a = .ok ds → ReportsValueFixes valueRules E pl a ds) :
    ∀ (fuel n : Nat) (sk : Bool) (a : Str) (b : Option Str) (res : _) (src : Src) (p c : Node), FixReached L pkg cfg path a0 a → ReadsAs a src p → Airy none src.pieces → CodeAt pl p c →
    lintFixLoop L pkg cfg path io fuel n sk (some a) = (b, res) →
    ∃ t src' q c', b = some t ∧ ReadsAs t src' q ∧ CodeAt pl q c' ∧ ResLe (eval E (core c)) (eval E (core c')) := by
  intro fuel
  induction fuel with
  | zero => intro n sk a b res src p c _ hr _ hat h; cases h; exact ⟨a, _, _, c, rfl, hr, hat, ResLe.refl _⟩
  | succ fuel ih =>
    intro n sk a b res src p c hre hr ha hat h
    rw [lintFixLoop] at h
    cases hrd : io.read n (some a) with
    | none => rw [hrd] at h; cases h; exact ⟨a, _, _, c, rfl, hr, hat, ResLe.refl _⟩
    | some contents =>
      have hca : contents = a := by
        unfold Io.read at hrd
        split at hrd
        · cases hrd; rfl
        · cases hrd
      subst hca
      rw [hrd] at h
      simp only at h
      cases hch : getChecks L pkg cfg path contents with
      | error e => rw [hch] at h; cases h; exact ⟨contents, _, _, c, rfl, hr, hat, ResLe.refl _⟩
      | ok ds =>
        rw [hch] at h
        simp only at h
        split at h
        · cases h; exact ⟨contents, _, _, c, rfl, hr, hat, ResLe.refl _⟩
        · split at h
          · cases h; exact ⟨contents, _, _, c, rfl, hr, hat, ResLe.refl _⟩
          · rename_i sk' text hap
            rw [hw n] at h
            simp only at h
            obtain ⟨src', q, c', g1, g2, g3, g4⟩ := textPass_value (hc _ _ hre hch) hap hr ha hat
            obtain ⟨t, s2, q2, c2, k1, k2, k3, k4⟩ := ih _ _ _ _ _ _ _ _ (.next hre hch hap) g1 g2 g3 h
            exact ⟨t, s2, q2, c2, k1, k2, k3, fun v hv => k4 v (g4 v hv)⟩

/-- Fixing a file, with as many passes as it takes, and a piece of code in it: if for every text on the way the fixes found are, in this piece, of these rules under their conditions with described
code around them, and elsewhere such that they keep the structure, then R reads the new file, the piece is where it was, and if it computed a value, it computes the same value. -/
theorem C79_file_partial {E : Env} {pl : List Nat} {L : Lints} {pkg : PackageAnalysis} {cfg : Config} {path : Str} {io : Io} {fuel : Nat} {a : Str} {b : Option Str}
    {res : Option (Except CheckErr (List Diagnostic))} {src : Src} {p e : Node} (hw : ∀ n, io.writeFails n = none)
    (hc : ∀ t ds, FixReached L pkg cfg path a t → getChecks L pkg cfg path t = .ok ds → ReportsValueFixes valueRules E pl t ds) (hr : ReadsAs a src p) (ha : Airy none src.pieces) (he : CodeAt pl p e)
    (h : lintFix L pkg cfg path io fuel (some a) = (b, res)) :
    ∃ t src' q e', b = some t ∧ ReadsAs t src' q ∧ CodeAt pl q e' ∧ ∀ v, eval E (core e) = .val v → eval E (core e') = .val v := by
  unfold lintFix at h
  split at h
  · cases h; exact ⟨a, _, _, e, rfl, hr, he, fun _ h => h⟩
  · exact lintFixLoop_value hw hc fuel 0 true a b res src p e .here hr ha he h

/-! ### Example (test) -/

/-- The second statement, `T`. -/
def passT (new : Bool) : Node := .scons (if new then .atom nl .true (cs! "TRUE") else .atom nl .id (cs! "T")) [] .snil

/-- `any(is.na(x))`, `length(levels(x))` -/
def passA : Node := cl (cs! "any") (cl (cs! "is.na") x')
def passB : Node := cl (cs! "length") (cl (cs! "levels") x')
def passA' : Node := cl (cs! "anyNA") x'
def passB' : Node := cl (cs! "nlevels") x'

/-- `… == TRUE && 2 > …` -/
def passE (a b : Node) : Node := op (op a .eq2 yes) .and2 (op (num (cs! "2")) .gt b)

/-- The places: the two calls, `T`, and afterwards the comparison. -/
def passZ1 : Zip := ⟨[.binL .none .eq2 yes, .binL .none .and2 (op (num (cs! "2")) .gt passB), .sconsE [] (passT false)], passA⟩
def passZ2 : Zip := ⟨[.binR (num (cs! "2")) .none .gt, .binR (op passA .eq2 yes) .none .and2, .sconsE [] (passT false)], passB⟩
def passZ3 : Zip := ⟨[.sconsE [] .snil, .sconsR (passE passA passB) []], .atom nl .id (cs! "T")⟩
def passZ4 : Zip := ⟨[.binL .none .and2 (op (num (cs! "2")) .gt passB'), .sconsE [] (passT true)], op passA' .eq2 yes⟩

def passEd1 : Edit := ⟨passZ1, toks passA', false⟩
def passEd2 : Edit := ⟨passZ2, toks passB', false⟩
def passEd3 : Edit := ⟨passZ3, [tk (.atom .true (cs! "TRUE"))], false⟩
def passEd4 : Edit := ⟨passZ4, toks passA', false⟩

/-- What is left. -/
def passLast : Node := .scons (op passA' .and2 (op (num (cs! "2")) .gt passB')) [] (passT true)

theorem good_of {p : Node} {ed : Edit} (y : Node) (h : (decide (ed.z.prog = p) && isExpr ed.z.e && isExpr y && decide (toks y = joinHead (headGap (toks ed.z.e)) ed.content) && isStmts (plug ed.z.fs y) && wf .top (plug ed.z.fs y) &&
    decide (toks (plug ed.z.fs y) = edited ed)) = true) : GoodFix p ed := by
  simp only [Bool.and_eq_true, decide_eq_true_eq] at h
  obtain ⟨⟨⟨⟨⟨⟨h1, h2⟩, h3⟩, h4⟩, h5⟩, h6⟩, h7⟩ := h
  exact ⟨h1, h2, y, h3, h4, h5, wf_WF h6, h7⟩

/-- `x` is `c(NA, "a")`. -/
def passX : Env := withX (.str (plain [none, some (cs! "a")]))

/-- Two passes: in the first, two fixes in the first statement and one in the second; in the second, a fix around what is left of the first. -/
theorem C79_ex_passes : ValuePasses valueRules passX [0] (toks passZ1.prog) (toks passLast) ∧ CodeAt [0] passZ1.prog (passE passA passB) ∧ eval passX (core (passE passA passB)) = .val (one (some true)) := by
  have v1 : ValueFix valueRules passX passZ1.prog passEd1 := by
    refine ⟨(cs! "any_is_na", anyIsNa, onlyNested, fun _ e => own 1 e ∧ callTo [cs! "any"] e), by simp [valueRules], passZ1, rfl, by decide +kernel, by decide +kernel, by decide +kernel, ?_, ?_, ?_⟩
    · simp only [passEd1, passZ1, passA]; cond
    · simp only [passEd1, passZ1, passA]; names
    · exact ⟨_, List.mem_singleton.mpr rfl, rfl⟩
  have v2 : ValueFix valueRules passX passZ1.prog passEd2 := by
    refine ⟨(cs! "length_levels", lengthLevels, onlyNested, fun _ e => own 1 e), by simp [valueRules], passZ2, by decide +kernel, by decide +kernel, by decide +kernel, by decide +kernel, ?_, ?_⟩
    · simp only [passEd2, passZ2, passB]; cond
    · simp only [passEd2, passZ2, passB]; names
  have v4 : ValueFix valueRules passX passZ4.prog passEd4 := by
    refine ⟨(cs! "redundant_equals", redundantEquals, always, logicalParts), by simp [valueRules], passZ4, rfl, by decide +kernel, by decide +kernel, by decide +kernel, trivial, ?_⟩
    intro x hx v hv
    simp only [passEd4, passZ4, passA', op, core, subs, List.mem_cons, List.not_mem_nil, or_false] at hx
    rcases hx with rfl | rfl
    · cases hv; exact ⟨_, rfl⟩
    · cases hv; exact ⟨_, rfl⟩
  have first : ValuePasses valueRules passX [0] (toks passZ1.prog) (toks passZ4.prog) := by
    refine .more (eds := [passEd1, passEd2, passEd3]) (.none _) (parses_of (p := passZ1.prog) (by decide +kernel)) ?_ ?_
    · intro ed hed
      simp only [List.mem_cons, List.not_mem_nil, or_false] at hed
      rcases hed with rfl | rfl | rfl
      · exact ⟨good_of passA' (by decide +kernel), .inl ⟨v1, [.binL .none .eq2 yes, .binL .none .and2 (op (num (cs! "2")) .gt passB)], [.sconsE [] (passT false)], rfl, rfl, by decide +kernel⟩⟩
      · exact ⟨good_of passB' (by decide +kernel), .inl ⟨v2, [.binR (num (cs! "2")) .none .gt, .binR (op passA .eq2 yes) .none .and2], [.sconsE [] (passT false)], rfl, rfl, by decide +kernel⟩⟩
      · refine ⟨good_of (.atom nl .true (cs! "TRUE")) (by decide +kernel), .inr ⟨?_, ?_⟩⟩ <;> decide +kernel
    · have h1 : toks passZ1.prog = [] ++ toks passA ++ (((beforeToks passZ2.fs).drop (toks passA).length) ++ toks passB ++ ([] ++ toks passZ3.e ++ [])) := by decide +kernel
      have h2 : toks passZ4.prog = [] ++ (cutOf passEd1).new ++ (((beforeToks passZ2.fs).drop (toks passA).length) ++ (cutOf passEd2).new ++ ([] ++ (cutOf passEd3).new ++ [])) := by decide +kernel
      rw [h1, h2]
      exact .cut (by decide +kernel) (by decide +kernel) (.cut (by decide +kernel) (by decide +kernel) (.cut (by decide +kernel) (by decide +kernel) (.done _ _)))
  refine ⟨.more (eds := [passEd4]) first (parses_of (p := passZ4.prog) (by decide +kernel)) ?_ ?_, ⟨[.sconsE [] (passT false)], rfl, rfl⟩, rfl⟩
  · intro ed hed
    cases List.mem_singleton.mp hed
    exact ⟨good_of passA' (by decide +kernel), .inl ⟨v4, [.binL .none .and2 (op (num (cs! "2")) .gt passB')], [.sconsE [] (passT true)], rfl, rfl, by decide +kernel⟩⟩
  · have h1 : toks passZ4.prog = [] ++ toks passZ4.e ++ afterToks passZ4.fs := by decide +kernel
    have h2 : toks passLast = [] ++ (cutOf passEd4).new ++ afterToks passZ4.fs := by decide +kernel
    rw [h1, h2]
    exact .cut (by decide +kernel) (by decide +kernel) (.done _ _)

/-- The hypotheses of `C79_file_partial` can be met: the first of the two calls in the file, where `x` is `c(NA, "a")`; the second is elsewhere. -/
theorem C79_ex_file : (∀ t ds, FixReached (plainLints twoFixes) exPkg exFixConfig (cs! "a.R") twoText t → getChecks (plainLints twoFixes) exPkg exFixConfig (cs! "a.R") t = .ok ds →
      ReportsValueFixes valueRules passX (path textZ1.fs) t ds) ∧ ReadsAs twoText twoSrc textZ1.prog ∧ Airy none twoSrc.pieces ∧ CodeAt (path textZ1.fs) textZ1.prog textZ1.e ∧
    eval passX (core textZ1.e) = .val (one (some true)) ∧ lintFix (plainLints twoFixes) exPkg exFixConfig (cs! "a.R") Io.good 2 (some twoText) = (some twoFixed, some (.ok [])) := by
  refine ⟨?_, twoText_reads, twoText_airy, ⟨_, rfl, rfl⟩, rfl, by rfl⟩
  intro a ds _ h src p hr
  obtain ⟨ds', h', hf⟩ := plain_checks twoFixes a (twoFixes_skip a)
  rw [h] at h'
  cases h'
  rw [hf]
  by_cases ha : a = twoText
  · subst ha
    obtain ⟨rfl, rfl⟩ := C66_one_reading hr twoText_reads
    refine ⟨twoEds, fun _ => true, ?_, twoText_apart, ?_, fun _ _ h => (nomatch h), twoText_bytes⟩
    · intro e he
      refine ⟨goodFix_of_rule (fun _ h => h) twoText_reads twoText_fixes e he, ?_⟩
      simp only [twoEds, List.mem_cons, List.not_mem_nil, or_false] at he
      rcases he with rfl | rfl
      · refine .inl ⟨⟨(cs! "any_is_na", anyIsNa, onlyNested, fun _ e => own 1 e ∧ callTo [cs! "any"] e), by simp [valueRules], textZ1, rfl, rfl, by decide +kernel, by decide +kernel, ?_, ?_, ?_⟩, [], textZ1.fs, by rfl, rfl, rfl⟩
        · show onlyNested textZ1
          simp only [textZ1, anyNa']; cond
        · show own 1 (core textZ1.e)
          simp only [textZ1, anyNa']; names
        · exact ⟨_, List.mem_singleton.mpr rfl, rfl⟩
      · refine .inr ⟨?_, ?_⟩ <;> decide +kernel
    · rw [List.filter_eq_self.mpr fun _ _ => rfl, twoFixes, if_pos rfl]
  · refine ⟨[], fun _ => true, fun _ h => (nomatch h), trivial, ?_, fun _ _ h => (nomatch h), fun _ h => (nomatch h)⟩
    rw [twoFixes, if_neg ha]; rfl

end Jarl
