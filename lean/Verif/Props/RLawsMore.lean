import Verif.Props.RLaws
/-!
# C52: what the rules put in is what they document, continued
-/
namespace Jarl
open Spec

theorem fixed_meta {s} (h : isFixedPattern s = true) : ∀ c ∈ s, c ∉ metaChars := by
  have key : ∀ (q : Char → Bool), (∀ c, q c = true → c ∉ metaChars) → ∀ {l : Str}, (∀ c ∈ l.dropWhile q, c ∉ metaChars) → ∀ c ∈ l, c ∉ metaChars := by
    intro q hq l
    induction l with
    | nil => simp
    | cons a as ih =>
      intro h c hc
      by_cases ha : q a = true
      · rw [List.dropWhile_cons_of_pos ha] at h
        rcases List.mem_cons.mp hc with rfl | hc
        · exact hq _ ha
        · exact ih h c hc
      · rw [List.dropWhile_cons_of_neg ha] at h
        exact h c hc
  have hq : ∀ c : Char, (decide (c = '"') || decide (c = '\'')) = true → c ∉ metaChars := by
    intro c hc
    simp only [Bool.or_eq_true, decide_eq_true_eq] at hc
    rcases hc with rfl | rfl <;> decide
  unfold isFixedPattern at h
  simp only [List.all_eq_true, decide_eq_true_eq] at h
  refine key _ hq fun c hc => ?_
  refine key _ hq (l := (List.dropWhile (fun c => decide (c = '"') || decide (c = '\'')) s).reverse) (fun c hc => ?_) c (List.mem_reverse.mpr hc)
  exact h c hc

theorem value_nonempty {as x pos v} (h : valueBy as x pos = some v) : as ≠ [] := by
  rintro rfl; cases h

theorem law_fixedRegex : Lawful (cs! "fixed_regex") fixedRegex noOptions := by
  intro ts p z ed e' hp hz h _ _ hc hpl
  have hw := at_place hp hz
  unrule fixedRegex h
  obtain ⟨f, args, h1, pos, hpos, _, _, _, _, q, hq, s, hs, _, hfix, kept, hk, rfl⟩ := h
  have hi := asCall_items hw h1
  simp only [noOptions, fixAt, argsOf_call h1] at hc
  obtain ⟨c1, c2⟩ := hc
  obtain ⟨g, g2, he⟩ := asCall_eq h1
  have c2 := c2 f g args g2 he
  have hq' := hq
  have hs' : ∃ g, q = .atom g .str s := by
    revert hs; split
    · intro hs; cases hs; exact ⟨_, rfl⟩
    · intro hs; cases hs
  obtain ⟨gq, rfl⟩ := hs'
  have hmatch : ∀ {params}, params[0]? = some (cs! "pattern") → matchArg params ((items args).map core) (cs! "pattern") = some (.atom .none .str s) := fun h =>
    match_value hi h (by simp) (Or.inr (by simp)) hq
  have hkept : kept = items args := by
    revert hk
    split
    · next hh =>
      exfalso
      have h4 : 4 ≤ pos := by
        revert hpos; split
        · intro h; cases h; decide
        · split
          · intro h; cases h; decide
          · intro h; cases h
      cases hv : valueBy (items args) (cs! "fixed") pos with
      | none => simp [hv] at hh
      | some v =>
        rcases value_cases hv with ⟨a, ha, hn⟩ | hlt
        · exact (c1 a ha).1 hn
        · have : (unnamedArgs (items args)).length ≤ 3 := by revert c2; split <;> omega
          omega
    · intro h; cases h; rfl
  subst hkept
  have hend : ArgsCore [tk (.atom .id (cs! "fixed")), tk (.op .eq), tk (.atom .true (cs! "TRUE"))]
      [.named .none .id (cs! "fixed") .none (.atom .none .true (cs! "TRUE"))] :=
    ⟨.named .none .id (cs! "fixed") .none (.atom .none .true (cs! "TRUE")), rfl, ⟨rfl, Or.inr ⟨rfl, trivial, by decide⟩⟩, by decide, rfl, rfl⟩
  rw [show core (fixAt z _).z.e = _ from asCall_core hw h1,
    (ClosedCore.callText ((ArgsCore.join hi (value_nonempty hq)).comma hend)).placed hpl]
  have huf : (((items args).map core).filter (fun a => (nameOf a).isNone)).length = (unnamedArgs (items args)).length := by
    rw [filter_core (p := fun o => o.isNone) hi, List.length_map]; rfl
  have hop : ∀ a ∈ (items args).map core, nameOf a ≠ some (cs! "fixed") ∧ nameOf a ≠ some (cs! "ignore.case") := by
    intro a ha
    obtain ⟨b, hb, rfl⟩ := List.mem_map.mp ha
    rw [nameOf_core (hi b hb)]; exact c1 b hb
  by_cases hsub : fnName f ∈ [cs! "sub", cs! "gsub"]
  · refine .fixed_regex (params := [cs! "pattern", cs! "replacement", cs! "x"]) (fn_core rfl ?_) (Or.inr ⟨hsub, rfl⟩) ?_ hop (hmatch rfl) (fixed_meta (guard_some hfix)) (isArg_map hi)
    · simp only [List.mem_cons, List.not_mem_nil, or_false] at hsub
      rcases hsub with h | h <;> rw [h] <;> decide
    · rw [huf]
      simp only [List.mem_cons, List.not_mem_nil, or_false] at hsub
      rw [if_pos hsub] at c2; exact c2
  · have hname : fnName f ∈ [cs! "grep", cs! "regexpr", cs! "gregexpr", cs! "regexec", cs! "grepl"] := by
      simp only [List.mem_cons, List.not_mem_nil, or_false] at hsub ⊢
      revert hpos; split
      · next h =>
        intro _
        simp only [List.mem_cons, List.not_mem_nil, or_false] at h
        rcases h with h | h | h
        · exact Or.inl h
        · exact absurd (Or.inr h) hsub
        · exact absurd (Or.inl h) hsub
      · split
        · next h => intro _; simp only [List.mem_cons, List.not_mem_nil, or_false] at h; exact Or.inr h
        · intro h; cases h
    refine .fixed_regex (params := [cs! "pattern", cs! "x"]) (fn_core rfl ?_) (Or.inl ⟨hname, rfl⟩) ?_ hop (hmatch rfl) (fixed_meta (guard_some hfix)) (isArg_map hi)
    · simp only [List.mem_cons, List.not_mem_nil, or_false] at hname
      rcases hname with h | h | h | h | h <;> rw [h] <;> decide
    · rw [huf]
      simp only [List.mem_cons, List.not_mem_nil, or_false] at hsub
      rw [if_neg hsub] at c2; exact c2

/-! ## testthat -/

theorem expectEqual_law {f} (h : isExpectEqual f = true) : ExpectEqual (core f) ∧ ∃ s, fnName f = s ∧ Plain s := by
  simp only [isExpectEqual, Bool.or_eq_true, decide_eq_true_eq] at h
  rcases h with h | h
  · exact ⟨Or.inl (fn_core h (by decide)), _, h, by decide⟩
  · exact ⟨Or.inr (fn_core h (by decide)), _, h, by decide⟩

theorem single_law {md e f args p x} (hw : WF md e) (h : asCall e = some (f, args)) (hl : (items args).length = 1) (hx : valueBy (items args) p 0 = some x) :
    Single p ((items args).map core) (core x) := ⟨by simpa using hl, isArg_map (asCall_items hw h), match_one (asCall_items hw h) hx⟩

theorem valueBy_from {as x pos v} (h : valueBy as x pos = some v) : ∃ a ∈ as, argValue a = some v := by
  obtain ⟨a, ha, hv⟩ := Option.bind_eq_some_iff.mp h
  exact ⟨a, argBy_mem ha, hv⟩

theorem law_expectNamed : Lawful (cs! "expect_named") expectNamed atMostTwo := by
  intro ts p z ed e' hp hz h _ _ hc hpl
  have hw := at_place hp hz
  unrule expectNamed h
  obtain ⟨f, args, h1, _, hf, obj, hobj, exp, hexp, nf, nargs, h2, _, hnf, _, _, x, hx, rfl⟩ := h
  have hi := asCall_items hw h1
  obtain ⟨hE, s, hs, hpl'⟩ := expectEqual_law (guard_some hf)
  simp only [atMostTwo, fixAt, argsOf_call h1] at hc
  obtain ⟨m1, m2, m3⟩ := match_two hi (by decide) hc.1 hobj hexp
  have hoo := valueBy_ok hi hobj
  obtain ⟨a, ha, hav⟩ := valueBy_from hobj
  rw [show core (fixAt z _).z.e = _ from asCall_core hw h1,
    (sibling_text hs hpl' ((valueBy_ok (asCall_items hoo.wf h2) hx).core.comma (valueBy_ok hi hexp).core)).placed hpl]
  rw [asCall_core hoo.wf h2] at m1
  exact .expect_named hE (by simpa using m3) (isArg_map hi) m1 (fn_core (guard_some hnf) (by decide)) (single_law hoo.wf h2 (callsOne_items h2 (hc.2 a ha obj hav)) hx) m2

theorem law_expectTrueFalse : Lawful (cs! "expect_true_false") expectTrueFalse twoArgs := by
  intro ts p z ed e' hp hz h _ _ hc hpl
  have hw := at_place hp hz
  unrule expectTrueFalse h
  obtain ⟨f, args, h1, _, hf, obj, hobj, exp, hexp, b, other, hb, rfl⟩ := h
  have hi := asCall_items hw h1
  obtain ⟨hE, s, hs, hpl'⟩ := expectEqual_law (guard_some hf)
  simp only [twoArgs, fixAt, argsOf_call h1] at hc
  obtain ⟨m1, m2, m3⟩ := match_two hi (by decide) hc hobj hexp
  have hoo := valueBy_ok hi hobj
  have hoe := valueBy_ok hi hexp
  have key : ∃ y, ExprOk other ∧ Expect ((items args).map core) (core other) y ∧ Text (if b then cs! "TRUE" else cs! "FALSE") y := by
    revert hb
    split
    · next ht => intro hb; cases hb; exact ⟨_, hoe, Or.inr ⟨m1, m2⟩, textIs_core ht⟩
    · split
      · next ht => intro hb; cases hb; exact ⟨_, hoe, Or.inr ⟨m1, m2⟩, textIs_core ht⟩
      · split
        · next ht => intro hb; cases hb; exact ⟨_, hoo, Or.inl ⟨m1, m2⟩, textIs_core ht⟩
        · split
          · next ht => intro hb; cases hb; exact ⟨_, hoo, Or.inl ⟨m1, m2⟩, textIs_core ht⟩
          · intro hb; cases hb
  obtain ⟨y, ho, hy, ht⟩ := key
  rw [show core (fixAt z _).z.e = _ from asCall_core hw h1, (sibling_text hs hpl' ho.core).placed hpl]
  exact .expect_true_false hE (by simpa using m3) (isArg_map hi) hy ht

theorem arg_of {b} (he : isExpr b = true) (hw : WF .free b) (hl : argBp ≤ lp b) : ArgsCore (trimmed b) [core b] := ExprOk.core ⟨he, hw, hl⟩

theorem law_expectNot : Lawful (cs! "expect_not") expectNot notEq := by
  intro ts p z ed e' hp hz h _ _ hc hpl
  have hw := at_place hp hz
  unrule expectNot h
  obtain ⟨f, args, h1, _, hf, obj, hobj, _, hl, o, a, hu, _, hob, _, _, rfl⟩ := h
  have hi := asCall_items hw h1
  have hf := guard_some hf
  have hob := guard_some hob
  subst hob
  have hl := guard_some hl
  have hl : (items args).length = 1 := by
    have := List.length_pos_iff.mpr (value_nonempty hobj); omega
  have hoo := valueBy_ok hi hobj
  have hS := single_law hw h1 hl hobj
  have hwo := hoo.wf
  obtain ⟨g, rfl⟩ := asUn_eq hu
  obtain ⟨w1, w2, k, hk, w3⟩ := hwo
  cases hk
  obtain ⟨b, hb, hbv⟩ := valueBy_from hobj
  simp only [notEq, fixAt, argsOf_call h1] at hc
  have hc := hc b hb
  have hinner : ArgsCore (trimmed (match asParen a with | some b => b | none => a)) [core a] := by
    cases hpa : asParen a with
    | none => exact arg_of w1 w2 (Nat.le_trans (by decide) w3)
    | some c =>
      obtain ⟨g3, g4, rfl⟩ := asParen_eq hpa
      exact arg_of w2.1 w2.2 (hc _ _ _ _ hbv)
  simp only [core] at hS
  rw [show core (fixAt z _).z.e = _ from asCall_core hw h1]
  rcases hf with hf | hf
  · rw [(sibling_text hf (by decide) hinner).placed hpl, if_pos hf]
    exact Law.expect_not (b := true) (fn_core hf (by decide)) hS
  · rw [(sibling_text hf (by decide) hinner).placed hpl, if_neg (by rw [hf]; decide)]
    exact Law.expect_not (b := false) (fn_core hf (by decide)) hS

theorem law_expectNull : Lawful (cs! "expect_null") expectNull expectArgs := by
  intro ts p z ed e' hp hz h _ _ hc hpl
  have hw := at_place hp hz
  unrule expectNull h
  obtain ⟨f, args, h1, h⟩ := h
  have hi := asCall_items hw h1
  split at h
  · next hf =>
    simp only [Option.bind_eq_some_iff, Option.some.injEq] at h
    obtain ⟨obj, hobj, exp, hexp, other, ho, rfl⟩ := h
    obtain ⟨hE, s, hs, hpl'⟩ := expectEqual_law hf
    simp only [expectArgs, fixAt, argsOf_call h1] at hc
    obtain ⟨g, g2, he⟩ := asCall_eq h1
    have hl : (items args).length ≤ 2 := by have := hc.1 f g args g2 he; revert this; split <;> omega
    obtain ⟨m1, m2, m3⟩ := match_two hi (by decide) hl hobj hexp
    have key : ∃ y, ExprOk other ∧ Expect ((items args).map core) (core other) y ∧ Const .null y := by
      revert ho
      split
      · next ht => intro hb; cases hb; exact ⟨_, valueBy_ok hi hobj, Or.inl ⟨m1, m2⟩, isAtom_core ht⟩
      · split
        · next ht => intro hb; cases hb; exact ⟨_, valueBy_ok hi hexp, Or.inr ⟨m1, m2⟩, isAtom_core ht⟩
        · intro hb; cases hb
    obtain ⟨y, ho, hy, ht⟩ := key
    rw [show core (fixAt z _).z.e = _ from asCall_core hw h1, (sibling_text hs hpl' ho.core).placed hpl]
    exact .expect_null hE (by simpa using m3) (isArg_map hi) hy ht
  · simp only [Option.bind_eq_some_iff, Prod.exists, Option.some.injEq] at h
    obtain ⟨_, hf, obj, hobj, g, iargs, h2, _, hg, x, hx, rfl⟩ := h
    have hf := guard_some hf
    simp only [expectArgs, fixAt, argsOf_call h1] at hc
    obtain ⟨gg, g2, he⟩ := asCall_eq h1
    have hl := hc.1 f gg args g2 he
    rw [if_pos hf] at hl
    have hl : (items args).length = 1 := by have := List.length_pos_iff.mpr (value_nonempty hobj); omega
    have hoo := valueBy_ok hi hobj
    have hS := single_law hw h1 hl hobj
    obtain ⟨b, hb, hbv⟩ := valueBy_from hobj
    rw [asCall_core hoo.wf h2] at hS
    rw [show core (fixAt z _).z.e = _ from asCall_core hw h1, (sibling_text hf (by decide) (valueBy_ok (asCall_items hoo.wf h2) hx).core).placed hpl]
    exact .expect_null_true (fn_core hf (by decide)) hS (fn_core (guard_some hg) (by decide)) (single_law hoo.wf h2 (callsOne_items h2 (hc.2 b hb obj hbv)) hx)

theorem calls_fn {name e f args} (h : calls name e = true) (h1 : asCall e = some (f, args)) : fnName f = name := by
  simpa [calls, h1] using h

theorem law_expectLength : Lawful (cs! "expect_length") expectLength innerPlain := by
  intro ts p z ed e' hp hz h _ _ hc hpl
  have hw := at_place hp hz
  unrule expectLength h
  obtain ⟨f, args, h1, _, hf, obj, hobj, exp, hexp, _, hl, c, other, ho, _, _, lf, largs, h2, x, hx, rfl⟩ := h
  have hi := asCall_items hw h1
  obtain ⟨hE, s, hs, hpl'⟩ := expectEqual_law (guard_some hf)
  obtain ⟨m1, m2, m3⟩ := match_two hi (by decide) (guard_some hl) hobj hexp
  simp only [innerPlain, fixAt, argsOf_call h1] at hc
  have key : ExprOk other ∧ ExprOk c ∧ Expect ((items args).map core) (core c) (core other) ∧ calls (cs! "length") c = true ∧ callsOne c := by
    obtain ⟨a, ha, hav⟩ := valueBy_from hobj
    obtain ⟨b, hb, hbv⟩ := valueBy_from hexp
    revert ho
    split
    · next ht => intro h; cases h; exact ⟨valueBy_ok hi hexp, valueBy_ok hi hobj, Or.inl ⟨m1, m2⟩, ht, hc a ha _ hav⟩
    · split
      · next ht => intro h; cases h; exact ⟨valueBy_ok hi hobj, valueBy_ok hi hexp, Or.inr ⟨m1, m2⟩, ht, hc b hb _ hbv⟩
      · intro h; cases h
  obtain ⟨ho, hco, hy, hn, hone⟩ := key
  rw [asCall_core hco.wf h2] at hy
  rw [show core (fixAt z _).z.e = _ from asCall_core hw h1, (sibling_text hs hpl' ((valueBy_ok (asCall_items hco.wf h2) hx).core.comma ho.core)).placed hpl]
  exact .expect_length hE (by simpa using m3) (isArg_map hi) hy (fn_core (calls_fn hn h2) (by decide)) (single_law hco.wf h2 (callsOne_items h2 hone) hx)

theorem typeNames_law {name ty} (h : typeNames.lookup name = some ty) : isType name ty ∧ Plain name := by
  have : ∀ {l : List (Str × Str)}, l.lookup name = some ty → (name, ty) ∈ l := by
    intro l
    induction l with
    | nil => intro h; cases h
    | cons q l ih =>
      obtain ⟨a, b⟩ := q
      simp only [List.lookup_cons]
      split
      · next h => intro hb; cases hb; simp at h; simp [h]
      · intro h; exact List.mem_cons_of_mem _ (ih h)
  have := this h
  simp only [typeNames, List.mem_cons, List.not_mem_nil, or_false, Prod.mk.injEq] at this
  unfold isType
  rcases this with ⟨rfl, rfl⟩ | ⟨rfl, rfl⟩ | ⟨rfl, rfl⟩ | ⟨rfl, rfl⟩ | ⟨rfl, rfl⟩ | ⟨rfl, rfl⟩ | ⟨rfl, rfl⟩ | ⟨rfl, rfl⟩ | ⟨rfl, rfl⟩ | ⟨rfl, rfl⟩ | ⟨rfl, rfl⟩ | ⟨rfl, rfl⟩ | ⟨rfl, rfl⟩ <;>
    decide

theorem law_expectType : Lawful (cs! "expect_type") expectType innerPlain := by
  intro ts p z ed e' hp hz h _ _ hc hpl
  have hw := at_place hp hz
  unrule expectType h
  obtain ⟨f, args, h1, h⟩ := h
  have hi := asCall_items hw h1
  split at h
  · next hf =>
    simp only [Option.bind_eq_some_iff, Prod.exists, Option.some.injEq] at h
    obtain ⟨_, hl, obj, hobj, exp, hexp, c, other, ho, lf, largs, h2, x, hx, rfl⟩ := h
    obtain ⟨hE, s, hs, hpl'⟩ := expectEqual_law hf
    obtain ⟨m1, m2, m3⟩ := match_two hi (by decide) (guard_some hl) hobj hexp
    simp only [innerPlain, fixAt, argsOf_call h1] at hc
    have key : ExprOk other ∧ ExprOk c ∧ Expect ((items args).map core) (core c) (core other) ∧ calls (cs! "typeof") c = true ∧ callsOne c := by
      obtain ⟨a, ha, hav⟩ := valueBy_from hobj
      obtain ⟨b, hb, hbv⟩ := valueBy_from hexp
      revert ho
      split
      · next ht => intro h; cases h; exact ⟨valueBy_ok hi hexp, valueBy_ok hi hobj, Or.inl ⟨m1, m2⟩, ht, hc a ha _ hav⟩
      · split
        · next ht => intro h; cases h; exact ⟨valueBy_ok hi hobj, valueBy_ok hi hexp, Or.inr ⟨m1, m2⟩, ht, hc b hb _ hbv⟩
        · intro h; cases h
    obtain ⟨ho, hco, hy, hn, hone⟩ := key
    rw [asCall_core hco.wf h2] at hy
    rw [show core (fixAt z _).z.e = _ from asCall_core hw h1, (sibling_text hs hpl' ((valueBy_ok (asCall_items hco.wf h2) hx).core.comma ho.core)).placed hpl]
    exact .expect_type hE (by simpa using m3) (isArg_map hi) hy (fn_core (calls_fn hn h2) (by decide)) (single_law hco.wf h2 (callsOne_items h2 hone) hx)
  · simp only [Option.bind_eq_some_iff, Prod.exists, Option.some.injEq] at h
    obtain ⟨_, hf, _, hl, obj, hobj, g, iargs, h2, ty, hty, x, hx, rfl⟩ := h
    have hf := guard_some hf
    have hl := guard_some hl
    have hl : (items args).length = 1 := by have := List.length_pos_iff.mpr (value_nonempty hobj); omega
    simp only [innerPlain, fixAt, argsOf_call h1] at hc
    have hoo := valueBy_ok hi hobj
    have hS := single_law hw h1 hl hobj
    obtain ⟨b, hb, hbv⟩ := valueBy_from hobj
    rw [asCall_core hoo.wf h2] at hS
    obtain ⟨ht, hpn⟩ := typeNames_law hty
    rw [show core (fixAt z _).z.e = _ from asCall_core hw h1,
      (sibling_text hf (by decide) ((valueBy_ok (asCall_items hoo.wf h2) hx).core.comma (ClosedCore.atom .str ty).args)).placed hpl]
    exact .expect_type_true (fn_core hf (by decide)) hS (fn_core rfl hpn) ht (single_law hoo.wf h2 (callsOne_items h2 (hc b hb obj hbv)) hx)

theorem law_expectS3Class : Lawful (cs! "expect_s3_class") expectS3Class innerPlain := by
  intro ts p z ed e' hp hz h _ _ hc hpl
  have hw := at_place hp hz
  unrule expectS3Class h
  obtain ⟨f, args, h1, _, hf, oa, hoa, ea, hea, _, hl, obj, hobj, exp, hexp, c, other, ho, s', hs', _, _, lf, largs, h2, x, hx, rfl⟩ := h
  have hi := asCall_items hw h1
  have hobj' : valueBy (items args) (cs! "object") 0 = some obj := by unfold valueBy; rw [hoa]; exact hobj
  have hexp' : valueBy (items args) (cs! "expected") 1 = some exp := by unfold valueBy; rw [hea]; exact hexp
  obtain ⟨hE, s, hs, hpl'⟩ := expectEqual_law (guard_some hf)
  obtain ⟨m1, m2, m3⟩ := match_two hi (by decide) (guard_some hl) hobj' hexp'
  simp only [innerPlain, fixAt, argsOf_call h1] at hc
  have key : ExprOk other ∧ ExprOk c ∧ Expect ((items args).map core) (core c) (core other) ∧ calls (cs! "class") c = true ∧ callsOne c := by
    have ha := argBy_mem hoa
    have hb := argBy_mem hea
    revert ho
    split
    · split
      · next ht => intro h; cases h; exact ⟨valueBy_ok hi hexp', valueBy_ok hi hobj', Or.inl ⟨m1, m2⟩, ht, hc _ ha _ hobj⟩
      · intro h; cases h
    · split
      · next ht => intro h; cases h; exact ⟨valueBy_ok hi hobj', valueBy_ok hi hexp', Or.inr ⟨m1, m2⟩, ht, hc _ hb _ hexp⟩
      · intro h; cases h
  obtain ⟨ho, hco, hy, hn, hone⟩ := key
  rw [asCall_core hco.wf h2] at hy
  have hstr : Const .str (core other) := by
    revert hs'; split
    · intro _; exact ⟨_, rfl⟩
    · intro h; cases h
  rw [show core (fixAt z _).z.e = _ from asCall_core hw h1, (sibling_text hs hpl' ((valueBy_ok (asCall_items hco.wf h2) hx).core.comma ho.core)).placed hpl]
  exact .expect_s3_class hE (by simpa using m3) (isArg_map hi) hy (fn_core (calls_fn hn h2) (by decide)) hstr (single_law hco.wf h2 (callsOne_items h2 hone) hx)

end Jarl
