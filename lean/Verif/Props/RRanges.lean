import Verif.Props.RCheck
import Verif.Props.RComments
import Verif.Spec.RRanges
/-!
# C80: the ranges of all reports, and which fixes are handed on
-/
namespace Jarl
open Spec

/-! ## What is replaced is an expression -/

/-- What the fix replaces is what the rule looked at, or else an expression. -/
def SpotRule (r : Zip → Option Edit) : Prop := ∀ z ed, r z = some ed → ed.z = z ∨ isExpr ed.z.e = true

theorem spot_fixAt {z c ed} (h : fixAt z c = ed) : ed.z = z ∨ isExpr ed.z.e = true := by subst h; exact .inl rfl

theorem isExpr_bin {e l o r} (h : asBin e = some (l, o, r)) : isExpr e = true := by
  cases e <;> first | rfl | cases h

theorem spot_nested {z outer inner c t} (h : nested z outer inner = some (c, t)) : t = z ∨ isExpr t.e = true := by
  simp only [nested, Option.bind_eq_bind, Option.bind_eq_some_iff, Option.orElse_eq_orElse, Prod.exists] at h
  obtain ⟨f, args, h1, _, _, h⟩ := h
  rcases orElse_some h with h | h
  · simp only [Option.bind_eq_some_iff, Prod.exists, Option.some.injEq, Prod.mk.injEq] at h
    obtain ⟨a, ha, v, hv, f2, args2, h2, _, _, rfl, rfl⟩ := h
    exact .inl rfl
  · simp only [Option.bind_eq_some_iff, Prod.exists] at h
    obtain ⟨q, hq', l, o, r, hb, _, ho, h⟩ := h
    rcases orElse_some h with h | h
    · simp only [Option.bind_eq_some_iff, Prod.exists, Option.some.injEq, Prod.mk.injEq] at h
      obtain ⟨f2, args2, h2, _, _, rfl, rfl⟩ := h
      exact .inr (isExpr_bin hb)
    · simp only [Option.bind_eq_some_iff, Prod.exists, Option.some.injEq, Prod.mk.injEq] at h
      obtain ⟨c', o2, r2, h3, _, ho2, f2, args2, _, _, _, _, _, rfl, rfl⟩ := h
      exact .inr (isExpr_bin hb)

/-- Take a rule apart down to the fix it proposes. -/
macro "spots" n:ident : tactic => `(tactic| (intro z ed h; unrule $n:ident h; repeat (first | exact spot_fixAt h | obtain ⟨_, h⟩ := h)))

/-- The same, for rules on nested calls. -/
macro "spotsIn" n:ident : tactic => `(tactic| (intro z ed h; unrule $n:ident h; obtain ⟨c, t, h, he⟩ := h; have := spot_nested h; subst he; exact this))

theorem spot_equalsSpecial (special name both) : SpotRule (equalsSpecial special name both) := by spots equalsSpecial

theorem spot_expectNull : SpotRule expectNull := by
  intro z ed h
  unrule expectNull h
  obtain ⟨f, args, h1, h⟩ := h
  split at h
  · simp only [Option.bind_eq_some_iff, Option.some.injEq] at h
    obtain ⟨obj, ho, exp, he, other, hc, h⟩ := h
    exact spot_fixAt h
  · simp only [Option.bind_eq_some_iff, Option.some.injEq, Prod.exists] at h
    obtain ⟨_, _, obj, ho, g, iargs, h2, _, _, x, hx, h⟩ := h
    exact spot_fixAt h

theorem spot_expectType : SpotRule expectType := by
  intro z ed h
  unrule expectType h
  obtain ⟨f, args, h1, h⟩ := h
  split at h
  · simp only [Option.bind_eq_some_iff, Option.some.injEq, Prod.exists] at h
    obtain ⟨_, _, obj, ho, exp, he, c, other, hc, g, iargs, h2, x, hx, h⟩ := h
    exact spot_fixAt h
  · simp only [Option.bind_eq_some_iff, Option.some.injEq, Prod.exists] at h
    obtain ⟨_, _, _, _, obj, ho, g, iargs, h2, ty, _, x, hx, h⟩ := h
    exact spot_fixAt h

theorem spot_redundantIfelse : SpotRule redundantIfelse := by
  intro z ed h
  unrule redundantIfelse h
  obtain ⟨f, args, h1, n1, n2, n3, _, _, _, c, hcv, t, _, e, _, h⟩ := h
  split at h
  · exact spot_fixAt (Option.some.inj h)
  · split at h
    · exact spot_fixAt (Option.some.inj h)
    · cases h

theorem spot_allEqualTrue : SpotRule allEqualTrue := by
  intro z ed h
  obtain ⟨fs, e⟩ := z
  unrule allEqualTrue h
  obtain ⟨_, _, f, args, _, _, _, h⟩ := h
  split at h
  · cases h; first | exact .inl rfl | exact .inr rfl
  · cases h; first | exact .inl rfl | exact .inr rfl
  · cases h; first | exact .inl rfl | exact .inr rfl
  · simp only [Option.bind_eq_some_iff, Option.some.injEq] at h
    obtain ⟨_, _, rfl⟩ := h
    first | exact .inl rfl | exact .inr rfl
  · cases h

theorem spot_sprintfRule : SpotRule sprintfRule := by
  intro z ed h
  obtain ⟨f, args, a, g, s, t, n, h1, _, _, _, _, he⟩ := sprintfRule_some h
  exact spot_fixAt he.symm

theorem spot_numericLeadingZero : SpotRule numericLeadingZero := by
  intro z ed h
  unfold numericLeadingZero at h
  split at h
  · cases h; first | exact .inl rfl | exact .inr rfl
  · cases h; first | exact .inl rfl | exact .inr rfl
  · cases h

theorem spot_trueFalseSymbol : SpotRule trueFalseSymbol := by
  intro z ed h
  unrule trueFalseSymbol h
  obtain ⟨k, new, hc, _, _, rfl⟩ := h
  exact .inl rfl

theorem spot_assignment (want) : SpotRule (assignment want) := by
  intro z ed h
  unrule assignment h
  obtain ⟨l, o, r, h1, h⟩ := h
  revert h
  generalize (if want = Op.assign then Op.eq else Op.assign) = other
  intro h
  split at h
  · cases h; first | exact .inl rfl | exact .inr rfl
  · split at h
    · cases h; first | exact .inl rfl | exact .inr rfl
    · cases h

theorem spot_repeatRule : SpotRule repeatRule := by
  intro z ed h
  unfold repeatRule at h
  split at h
  · split at h
    · exact spot_fixAt (Option.some.inj h)
    · cases h
  · cases h

theorem spot_coalesce : SpotRule coalesce := by
  intro z ed h
  unfold coalesce at h
  split at h
  · simp only [Option.bind_eq_bind, Option.bind_eq_some_iff, Prod.exists, Option.some.injEq] at h
    obtain ⟨call, same, other, hpick, f, args, hcall, _, _, _, _, x, hx, _, _, rfl⟩ := h
    first | exact .inl rfl | exact .inr rfl
  · cases h

theorem spot_unnecessaryNesting : SpotRule unnecessaryNesting := by
  intro z ed h
  unfold unnecessaryNesting at h
  split at h
  · exact spot_fixAt (Option.some.inj h)
  · cases h

theorem spot_rules (want : Op) : ∀ q ∈ fixRules want, SpotRule q.2 := by
  simp only [fixRules, keepingRules, roomRules, List.cons_append, List.nil_append, List.forall_mem_cons, List.not_mem_nil, false_imp_iff, implies_true, and_true]
  exact ⟨spot_allEqualTrue, by spotsIn anyIsNa, by spots anyIsNa2, by spots classIdentical, by spots classEquals, spot_equalsSpecial _ _ _, spot_equalsSpecial _ _ _, spot_equalsSpecial _ _ _,
    by spots expectLength, by spots expectMatch, by spots expectNamed, by spots expectMatch, spot_expectNull, by spots expectS3Class, by spots expectTrueFalse,
    spot_expectType, by spots fixedRegex, by spots grepv, by spots isNumeric, by spotsIn lengthLevels, by spots lengths, by spots list2df, by spots matrixApply,
    spot_numericLeadingZero, by spots redundantEquals, by spots sampleInt, by spots seq, by spots seq2, by spots sortRule, by spots stringBoundary, by spots systemFile,
    spot_trueFalseSymbol, by spotsIn whichGrepl, spot_sprintfRule, by spotsIn allEqualFalse, by spotsIn anyDuplicated, by spots comparisonNegation, by spots lengthTest,
    by spots outerNegation, spot_redundantIfelse, spot_assignment want, spot_coalesce, by spots expectNot, spot_repeatRule, spot_unnecessaryNesting⟩
theorem spot_expr {want : Op} {q} (hq : q ∈ fixRules want) {text : Str} {src : Src} {p : Node} (hr : ReadsAs text src p) {z : Zip} (hz : LookedAt p z) {ed : Edit} (h : q.2 z = some ed) :
    ed.z.prog = p ∧ isExpr ed.z.e = true ∧ WF (modeAt ed.z.fs) ed.z.e := by
  have hp : ed.z.prog = p := (place_rules want q hq z ed h).trans hz.1
  refine ⟨hp, ?_, WF_plug (show WF .top (plug ed.z.fs ed.z.e) from (show plug ed.z.fs ed.z.e = p from hp) ▸ hr.2.2.1)⟩
  rcases spot_rules want q hq z ed h with e | e
  · rw [e]; exact hz.2.1
  · exact e

/-! ## The ranges -/

theorem repeat_only (want : Op) : ∀ q ∈ fixRules want, q.1 = cs! "repeat" → q.2 = repeatRule := by
  simp only [fixRules, keepingRules, roomRules, List.cons_append, List.nil_append, List.forall_mem_cons, List.not_mem_nil, false_imp_iff, implies_true, and_true]
  repeat' constructor
  all_goals first
    | (intro _; rfl)
    | (intro h; exact absurd h (by decide))

theorem assignment_only (want : Op) : ∀ q ∈ fixRules want, q.1 = cs! "assignment" → q.2 = assignment want := by
  simp only [fixRules, keepingRules, roomRules, List.cons_append, List.nil_append, List.forall_mem_cons, List.not_mem_nil, false_imp_iff, implies_true, and_true]
  repeat' constructor
  all_goals first
    | (intro _; rfl)
    | (intro h; exact absurd h (by decide))

/-- The range of what a rule proposes. -/
theorem range_fixed {want : Op} {text : Str} {src : Src} {p : Node} (hr : ReadsAs text src p) {z : Zip} (hz : LookedAt p z) {q} (hq : q ∈ fixRules want) {ed : Edit} (h : q.2 z = some ed) :
    RangeFixed text src q.1 ed.z (fixRange src q.1 ed) := by
  obtain ⟨hp, hx, hw⟩ := spot_expr hq hr hz h
  have whole : RangeOf text src ed.z (placeRange src ed.z) := by
    have := tokensAt_part hr hp (A := []) (B := toks ed.z.e) (C := []) (by simp) (expr_toks hx hw)
    simpa [RangeOf, partRange, placeRange] using this
  unfold RangeFixed
  split
  · rename_i hn
    rw [repeat_only want q hq hn] at h
    unfold repeatRule at h
    split at h
    · rename_i g g2 c g3 b he
      split at h
      · cases h
        have hT := tokensAt_part hr hp (A := []) (B := ⟨g, .while⟩ :: ⟨g2, .open .par⟩ :: toks c ++ [⟨g3, .close .par⟩]) (C := toks b)
          (by show toks z.e = _; rw [he]; simp [toks]) (by simp)
        refine ⟨g, g2, c, g3, b, he, ?_⟩
        have hR : fixRange src q.1 (fixAt z (tk .repeat :: inBraces b)) = partRange src z 0 ((toks c).length + 3) := by
          unfold fixRange
          show (match z.e with | _ => _) = _
          simp only [fixAt]
          rw [he, hn]; simp
        rw [hR]
        simpa [fixAt] using hT
      · cases h
    · cases h
  · rename_i hn
    split
    · rename_i ha
      rw [assignment_only want q hq ha] at h
      obtain ⟨l, g, o, r, he, hez⟩ : ∃ l g o r, z.e = .bin l g o r ∧ ed.z = z := by
        have h0 := h
        simp only [assignment, Option.bind_eq_bind, Option.bind_eq_some_iff, Prod.exists] at h0
        obtain ⟨l, o, r, hb, h0⟩ := h0
        have hez : ed.z = z := by
          revert h0
          generalize (if want = Op.assign then Op.eq else Op.assign) = other
          intro h0
          split at h0
          · cases h0; rfl
          · split at h0
            · cases h0; rfl
            · cases h0
        generalize z.e = e at hb
        cases e <;> first | cases hb | skip
        exact ⟨_, _, _, _, rfl, hez⟩
      rw [hez] at hp whole ⊢
      refine ⟨l, g, o, r, he, ?_⟩
      have hF : fixRange src q.1 ed = if o = .rassign then partRange src z (toks l).length (toks z.e).length else partRange src z 0 ((toks l).length + 1) := by
        unfold fixRange; rw [hez, he, ha]; simp
      rw [hF]
      split
      · have hT := tokensAt_part hr hp (A := toks l) (B := ⟨g, .op o⟩ :: toks r) (C := []) (by rw [he]; simp [toks]) (by simp)
        rw [show (toks l).length + ((⟨g, .op o⟩ : Tok) :: toks r).length = (toks z.e).length by rw [he]; simp [toks]] at hT
        exact hT
      · have hT := tokensAt_part hr hp (A := []) (B := toks l ++ [⟨g, .op o⟩]) (C := toks r) (by rw [he]; simp [toks]) (by simp)
        simpa using hT
    · rename_i ha
      have hF : fixRange src q.1 ed = placeRange src ed.z := by
        unfold fixRange
        split
        · rw [if_neg ha]
        · rw [if_neg hn]
        · rfl
      rw [hF]; exact whole

/-- The range of what a rule without fix says. -/
theorem range_said {text : Str} {src : Src} {p : Node} {o : ROpts} (hr : ReadsAs text src p) {z : Zip} (hz : LookedAt p z) {n : Str} (hn : n ∈ sayNames) {s : Said} (hs : ruleOf o n z = .ok (some s)) (rg : Range) :
    noteRange src n z = rg ↔ RangeSaid text src n z rg := by
  have key : ∀ {a b : List Tok} {r0 : Range}, TokensAt text src a b r0 → (r0 = rg ↔ TokensAt text src a b rg) := by
    intro a b r0 h0
    exact ⟨fun e => e ▸ h0, fun h => tokensAt_unique h0 h⟩
  have hw : WF (modeAt z.fs) z.e := WF_plug (show WF .top (plug z.fs z.e) from (show plug z.fs z.e = p from hz.1) ▸ hr.2.2.1)
  obtain ⟨-, -, -, -, -, -, -, -, t9, t10, t11⟩ := C55_rule_table o z
  unfold RangeSaid
  split
  · rename_i hl
    obtain ⟨g, g2, gv, v, gi, q, g3, b, he⟩ : ∃ g g2 gv v gi q g3 b, z.e = .forE g g2 gv v gi q g3 b := by
      rcases hl with rfl | rfl
      · rw [t9] at hs
        simp only [Except.ok.injEq, forLoopIndex] at hs
        split at hs
        · rename_i he; exact ⟨_, _, _, _, _, _, _, _, he⟩
        · cases hs
      · rw [t10] at hs
        simp only [Except.ok.injEq, forLoopDupIndex] at hs
        split at hs
        · rename_i he; exact ⟨_, _, _, _, _, _, _, _, he⟩
        · cases hs
    have hN : noteRange src n z = partRange src z 2 ((toks q).length + 4) := by
      unfold noteRange; rw [he]; simp [hl]
    have hT := tokensAt_part hr hz.1 (A := [⟨g, .for⟩, ⟨g2, .open .par⟩]) (B := ⟨gv, .atom .id v⟩ :: ⟨gi, .in⟩ :: toks q) (C := ⟨g3, .close .par⟩ :: toks b) (by rw [he]; simp [toks]) (by simp)
    have hl2 : ([⟨g, .for⟩, ⟨g2, .open .par⟩] : List Tok).length + ((⟨gv, .atom .id v⟩ : Tok) :: ⟨gi, .in⟩ :: toks q).length = (toks q).length + 4 := by simp; omega
    rw [hl2] at hT
    rw [hN]
    constructor
    · intro e; exact ⟨g, g2, gv, v, gi, q, g3, b, he, (key hT).1 e⟩
    · rintro ⟨g', g2', gv', v', gi', q', g3', b', he', h'⟩
      rw [he] at he'; cases he'
      exact (key hT).2 h'
  · rename_i hl
    split
    · rename_i ha
      subst ha
      rw [t11] at hs
      unfold ifAlwaysTrue at hs
      split at hs
      · rename_i g g2 c g3 t he
        rw [he] at hw
        simp only [WF] at hw
        have hc : toks c ≠ [] := expr_toks hw.1 hw.2.1
        have hN : noteRange src (cs! "if_always_true") z = partRange src z 2 ((toks c).length + 2) := by
          unfold noteRange; rw [he]; simp
        have hT := tokensAt_part hr hz.1 (A := [⟨g, .if⟩, ⟨g2, .open .par⟩]) (B := toks c) (C := ⟨g3, .close .par⟩ :: toks t) (by rw [he]; simp [toks]) hc
        rw [show ([⟨g, .if⟩, ⟨g2, .open .par⟩] : List Tok).length + (toks c).length = (toks c).length + 2 by simp; omega] at hT
        rw [hN]
        constructor
        · intro e; exact ⟨g, g2, c, g3, t, he, (key hT).1 e⟩
        · rintro ⟨g', g2', c', g3', t', he', h'⟩
          rw [he] at he'; cases he'
          exact (key hT).2 h'
      · cases hs
    · rename_i ha
      have hN : noteRange src n z = placeRange src z := by
        unfold noteRange
        split
        · rw [if_neg hl]
        · rw [if_neg ha]
        · rw [if_neg ha]
        · rfl
      rw [hN]
      exact key (rangeOf_place hr hz)

/-- **C80** (all rules without fix, with the ranges). For each of the 11 rules without fix: what is reported is what the rule says (C55), at the range that belongs to the rule. -/
theorem C80_said_ranges {W : Wording} {L : Lints} (hL : RunsRules W L) (hP : ParserOk L) {pkg : PackageAnalysis} {cfg : Config} {file contents : Str} {ds : List Diagnostic}
    (hr : hasRmdExtension file = false) (h : getChecks L pkg cfg file contents = .ok ds) {pr : Parsed} (hp : L.parse contents = some pr) {src : Src} {p : Node} (hread : ReadsAs contents src p)
    (hun : ∀ es, L.unreachable cfg.lintInput contents = .ok es → ∀ d ∈ es, d.name = Rule.unreachableCode.name) {r : Rule} (hs : r.name ∈ sayNames) (rg : Range) :
    (∃ d ∈ ds, d.name = r.name ∧ d.range = rg) ↔
      r ∈ cfg.rulesToApply ∧ ∃ z, LookedAt p z ∧ (∃ s, ruleOf W.opts r.name z = .ok (some s)) ∧ RangeSaid contents src r.name z rg ∧ ¬ HiddenAt pr.root contents r rg := by
  have hc : CodeRule r := by
    intro hm
    revert hs
    simp only [List.mem_cons, List.not_mem_nil, or_false] at hm
    rcases hm with rfl | rfl | rfl | rfl | rfl | rfl | rfl | rfl | rfl | rfl | rfl <;> decide
  rw [said_reported hL hP hr h hp hread hc hun hs rg]
  refine and_congr_right fun _ => exists_congr fun z => ?_
  constructor
  · rintro ⟨h1, ⟨s, h2⟩, h3, h4⟩
    exact ⟨h1, ⟨s, h2⟩, (range_said hread h1 hs h2 rg).1 h3, h4⟩
  · rintro ⟨h1, ⟨s, h2⟩, h3, h4⟩
    exact ⟨h1, ⟨s, h2⟩, (range_said hread h1 hs h2 rg).2 h3, h4⟩

/-- **C80** (the range of a fix). A report with a fix stands at the code that is replaced; for repeat at `while (..)`, for assignment at the target with the operator. -/
theorem C80_fix_ranges {W : Wording} {L : Lints} (hL : RunsRules W L) (hP : ParserOk L) {pkg : PackageAnalysis} {cfg : Config} {file contents : Str} {ds : List Diagnostic}
    (hr : hasRmdExtension file = false) (h : getChecks L pkg cfg file contents = .ok ds) {pr : Parsed} (hp : L.parse contents = some pr) {src : Src} {p : Node} (hread : ReadsAs contents src p)
    (hun : ∀ es, L.unreachable cfg.lintInput contents = .ok es → ∀ d ∈ es, d.fix = Fix.empty) {d : Diagnostic} (hd : d ∈ ds) (hf : d.fix ≠ Fix.empty) :
    ∃ r ∈ cfg.rulesToApply, d.name = r.name ∧ FixAllowed cfg r ∧ ∃ z, z.prog = p ∧ isExpr z.e = true ∧ RangeFixed contents src r.name z d.range := by
  obtain ⟨r, hen, h1, h2, h3, h4, -, z, hz, q, hq, hqn, ed, he, -, h5, -⟩ := C80_fixes hL hP hr h hp hread hun hd hf
  obtain ⟨a, b, -⟩ := spot_expr hq hread hz he
  refine ⟨r, hen, h1, ⟨h2, h1 ▸ h3, fun l hl => h1 ▸ h4 l hl⟩, ed.z, a, b, ?_⟩
  rw [h5, ← hqn]
  exact range_fixed hread hz hq he

/-- **C80** (fixes are handed on). In a successful check, what an enabled rule with fixes proposes for code it looks at is reported at its range, with that fix, unless a suppression comment hides it, the
configuration does not let it through, or there are comments inside the code (`skip`). -/
theorem C80_handed_on {W : Wording} {L : Lints} (hL : RunsRules W L) (hP : ParserOk L) {pkg : PackageAnalysis} {cfg : Config} {file contents : Str} {ds : List Diagnostic}
    (hr : hasRmdExtension file = false) (h : getChecks L pkg cfg file contents = .ok ds) {pr : Parsed} (hp : L.parse contents = some pr) {src : Src} {p : Node} (hread : ReadsAs contents src p)
    {r : Rule} (hen : r ∈ cfg.rulesToApply) (hal : FixAllowed cfg r) {z : Zip} (hz : LookedAt p z) {q} (hq : q ∈ fixRules cfg.assignment.op) (hqn : q.1 = r.name) {ed : Edit} (he : q.2 z = some ed)
    (hsk : ed.skip = false) :
    ∃ rg, RangeFixed contents src r.name ed.z rg ∧
      (HiddenAt pr.root contents r rg ∨ ∃ d ∈ ds, d.name = r.name ∧ d.range = rg ∧ d.fix = textFix src ed (W.content src r.name ed)) := by
  refine ⟨fixRange src r.name ed, hqn ▸ range_fixed hread hz hq he, ?_⟩
  by_cases hh : HiddenAt pr.root contents r (fixRange src r.name ed)
  · exact .inl hh
  refine .inr ?_
  obtain ⟨p', m, exprs, unreach, t, hp', hm, hx, hu, ht, rfl⟩ := getChecksR_ok hr h
  rw [hp] at hp'; cases hp'
  obtain ⟨keep, hkeep, hfil⟩ := C08_hidden_iff_suppressed (hP _ _ hp) hm
    (rawDiagnostics cfg.rulesToApply m exprs unreach (pkg.duplicates file) (pkg.unused file))
  rw [hL _ _ _ _ hread] at hx
  have hxx := checkExpressions_ok hx
  have hfx : ed ∈ fixesOf cfg.assignment.op r.name (.node z) := by
    unfold fixesOf
    exact List.mem_filterMap.2 ⟨q, List.mem_filter.2 ⟨hq, by simpa using hqn⟩, he⟩
  have hv := (C53_looked_at p z).2 hz
  have hin : r.name ∈ rulesAt (.node z) := hqn ▸ fixRules_called _ q hq z (by rw [he]; simp)
  obtain ⟨ys, hy⟩ := hxx.1 (.node z) hv r hen hin
  have hd0 : fixDiag W src r.name ed ∈ exprs := (hxx.2 _).2 ⟨.node z, hv, r, hen, hin, ys, hy, callRule_fix (fix_not_say hfx) hy hfx⟩
  have hnd : ¬ FixDenied cfg (fixDiag W src r.name ed) := by
    unfold FixDenied
    obtain ⟨a1, a2, a3⟩ := hal
    rintro (h | ⟨l, hl, h⟩ | ⟨r', _, h1, h2⟩ | h)
    · exact a2 h
    · exact h (a3 l hl)
    · have : r' = r := Rule.name_inj h1
      subst this; exact a1 h2
    · have : ed.skip = true := h
      rw [hsk] at this; cases this
  obtain ⟨b1, _, _, _, b5, _⟩ := applyFixSettings_same cfg file (fixDiag W src r.name ed)
  refine ⟨_, List.mem_map_of_mem (List.mem_append.2 (.inl (hfil ▸ List.mem_filter.2 ⟨?_, (hkeep _).2 ?_⟩))), b1, b5, ((applyFixSettings_fix cfg file _).2 hnd)⟩
  · unfold rawDiagnostics
    simp only [List.mem_append, hd0, true_or]
  · rw [hidden_at (r := r) rfl]; exact hh

end Jarl
