import Verif.Props.RFoundMore
import Verif.Props.RLawsMatch
/-!
# C63: the rules find the code they document, part 4: tests, regular expressions, formats
-/
namespace Jarl
open Spec

theorem bare_fn {f s} (h : fnName f = s) (hs : Plain s) : Fn s (bare f) := by
  rcases fn_cases h hs with ⟨g, rfl⟩ | ⟨g, pkg, i, rfl⟩
  · exact Or.inl rfl
  · exact Or.inr ⟨_, _, rfl⟩

theorem expect_is {f : Node} (h : ExpectEqual (bare f)) : isExpectEqual f = true := by
  rcases h with h | h <;> simp [isExpectEqual, fn_bare h]

theorem expect_not_is {f : Node} {n : Str} (h : Fn n (bare f)) (h1 : n ≠ cs! "expect_equal") (h2 : n ≠ cs! "expect_identical") : isExpectEqual f = false := by
  simp only [isExpectEqual, fn_bare h]
  simpa using ⟨h1, h2⟩

/-- The values of `object` and `expected`. -/
theorem expect_values {bs : List Node} {a b : Node} (h : Expect (bs.map bare) a b) (ho : InOrder [cs! "object", cs! "expected"] bs) :
    ∃ o0 e0, valueBy bs (cs! "object") 0 = some o0 ∧ valueBy bs (cs! "expected") 1 = some e0 ∧ ((bare o0 = a ∧ bare e0 = b) ∨ (bare o0 = b ∧ bare e0 = a)) := by
  rcases h with ⟨h1, h2⟩ | ⟨h1, h2⟩ <;>
    (obtain ⟨o0, k1, e1⟩ := matched_first h1; obtain ⟨e0, k2, e2⟩ := matched_second h2 (by decide) ho)
  · exact ⟨o0, e0, k1, k2, Or.inl ⟨e1, e2⟩⟩
  · exact ⟨o0, e0, k1, k2, Or.inr ⟨e1, e2⟩⟩

theorem expect_ne {as a b} (h : Expect as a b) : as ≠ [.hole] := by
  rcases h with ⟨h, _⟩ | ⟨h, _⟩ <;> exact items_ne h

theorem calls_of {e : Node} {f : Node} {as : List Node} {n : Str} (h : bare e = callOf f as) (hf : Fn n f) : calls n e = true := by
  obtain ⟨f0, args, h1, rfl, _⟩ := call_inv h
  simp [calls, h1, fn_bare hf]

theorem callOf_calls {e : Node} {n : Str} (h : calls n e = true) (hn : Plain n) : CallOf n (bare e) := by
  unfold calls at h
  split at h
  · next f args heq =>
    simp only [decide_eq_true_eq] at h
    cases e <;> simp [asCall] at heq
    split at heq <;> simp at heq
    next f0 g args0 g2 he =>
    cases he
    obtain ⟨rfl, rfl⟩ := heq
    exact ⟨_, _, bare_fn h hn, rfl⟩
  · cases h

theorem single_value {e g : Node} {ns : List Node} {x : Node} {p : Str} (h : bare e = callOf g ns) (hs : Single p ns x) :
    ∃ f args v0, asCall e = some (f, args) ∧ bare f = g ∧ (items args).length = 1 ∧ valueBy (items args) p 0 = some v0 ∧ bare v0 = x := by
  obtain ⟨f, args, h1, h2, rfl⟩ := call_items h (single_ne hs) hs.2.1
  obtain ⟨hl, v0, hv, hb⟩ := single_inv hs
  exact ⟨f, args, v0, h1, h2, hl, hv, hb⟩

theorem found_expectTrueFalse {z f as x y} {b : Bool} (h : bare z.e = callOf f as) (hf : ExpectEqual f) (hl : as.length = 2) (ha : ∀ a ∈ as, isArg a = true) (hx : Expect as x y)
    (hy : Text (if b then cs! "TRUE" else cs! "FALSE") y) (hc : twoOrdered z) : Hits expectTrueFalse z := by
  obtain ⟨f0, args, h1, rfl, rfl⟩ := call_items h (expect_ne hx) ha
  unfold twoOrdered ordered at hc
  rw [argsOf_of h1] at hc
  obtain ⟨o0, e0, k1, k2, k3⟩ := expect_values hx (hc (by simpa using hl))
  have : textIs (cs! "TRUE") o0 = true ∨ textIs (cs! "FALSE") o0 = true ∨ textIs (cs! "TRUE") e0 = true ∨ textIs (cs! "FALSE") e0 = true := by
    rcases k3 with ⟨_, rfl⟩ | ⟨rfl, _⟩ <;> cases b <;> simp at hy <;> simp [text_bare hy]
  unfold Hits expectTrueFalse
  simp only [h1, Option.bind_eq_bind, Option.bind_some, expect_is hf, guard_true, k1, k2]
  split
  · rfl
  split
  · rfl
  split
  · rfl
  split
  · rfl
  · simp_all

theorem found_expectNull {z f as x y} (h : bare z.e = callOf f as) (hf : ExpectEqual f) (hl : as.length = 2) (ha : ∀ a ∈ as, isArg a = true) (hx : Expect as x y)
    (hy : Const .null y) (hc : twoOrdered z) : Hits expectNull z := by
  obtain ⟨f0, args, h1, rfl, rfl⟩ := call_items h (expect_ne hx) ha
  unfold twoOrdered ordered at hc
  rw [argsOf_of h1] at hc
  obtain ⟨o0, e0, k1, k2, k3⟩ := expect_values hx (hc (by simpa using hl))
  have : isAtom .null e0 = true ∨ isAtom .null o0 = true := by
    rcases k3 with ⟨_, rfl⟩ | ⟨rfl, _⟩ <;> simp [const_bare hy]
  unfold Hits expectNull
  simp only [h1, Option.bind_eq_bind, Option.bind_some, expect_is hf, if_true, k1, k2]
  split
  · rfl
  split
  · rfl
  · simp_all

theorem found_expectNull_true {z f g as ns x} (h : bare z.e = callOf f as) (hf : Fn (cs! "expect_true") f) (hs : Single (cs! "object") as (callOf g ns)) (hg : Fn (cs! "is.null") g)
    (hn : Single (cs! "x") ns x) : Hits expectNull z := by
  obtain ⟨f0, args, v0, h1, rfl, hl, hv, hb⟩ := single_value h hs
  obtain ⟨g0, args2, w0, h2, rfl, hl2, hw, _⟩ := single_value hb hn
  unfold Hits expectNull
  simp only [h1, Option.bind_eq_bind, Option.bind_some, expect_not_is hf (by decide) (by decide), fn_bare hf, guard_true, hv, h2, fn_bare hg, hw]
  rfl

theorem found_expectNot {z f as x} {b : Bool} (h : bare z.e = callOf f as) (hf : Fn (if b then cs! "expect_true" else cs! "expect_false") f)
    (hs : Single (cs! "object") as (.un .none .bang x)) (hc : onceNegated z) : Hits expectNot z := by
  obtain ⟨f0, args, v0, h1, rfl, hl, hv, hb⟩ := single_value h hs
  obtain ⟨x0, g, rfl, _⟩ := un_inv hb
  have hn : fnName f0 = cs! "expect_true" ∨ fnName f0 = cs! "expect_false" := by
    rw [fn_bare hf]; cases b <;> simp
  have hx : (asUn x0).all (fun q => q.1 ≠ .bang) = true := by
    obtain ⟨a, ha, hav⟩ := valueBy_from hv
    unfold onceNegated at hc
    rw [argsOf_of h1] at hc
    cases x0 <;> try rfl
    next g' o' x' =>
    simp only [asUn, Option.all_some, ne_eq, decide_not, Bool.not_eq_true', decide_eq_false_iff_not]
    rintro rfl
    exact hc a ha _ _ _ hav
  have hl : (items args).length ≤ 1 := by omega
  unfold Hits expectNot
  simp only [h1, Option.bind_eq_bind, Option.bind_some, hn, guard_true, hv, hl, asUn_un, hx]
  rfl

theorem found_expectNamed {z f g as ns x y} (h : bare z.e = callOf f as) (hf : ExpectEqual f) (hl : as.length = 2) (ha : ∀ a ∈ as, isArg a = true)
    (ho : matchArg [cs! "object", cs! "expected"] as (cs! "object") = some (callOf g ns)) (hg : Fn (cs! "names") g) (hn : Single (cs! "x") ns x)
    (he : matchArg [cs! "object", cs! "expected"] as (cs! "expected") = some y) (hc : oneSide (cs! "names") z) : Hits expectNamed z := by
  obtain ⟨f0, args, h1, rfl, rfl⟩ := call_items h (items_ne ho) ha
  unfold oneSide ordered at hc
  rw [argsOf_of h1] at hc
  obtain ⟨o0, k1, e1⟩ := matched_first ho
  obtain ⟨e0, k2, rfl⟩ := matched_second he (by decide) (hc.1 (by simpa using hl))
  have hno : calls (cs! "names") e0 = false := bool_false fun h => hc.2 _ _ (Or.inl ⟨ho, he⟩) ⟨⟨_, _, hg, rfl⟩, callOf_calls h (by decide)⟩
  obtain ⟨g0, args2, w0, h2, rfl, hl2, hw, _⟩ := single_value e1 hn
  unfold Hits expectNamed
  simp only [h1, Option.bind_eq_bind, Option.bind_some, expect_is hf, guard_true, k1, k2, h2, fn_bare hg, hno, hw, Bool.not_false]
  rfl

theorem found_expectLength {z f g as ns x y} (h : bare z.e = callOf f as) (hf : ExpectEqual f) (hl : as.length = 2) (ha : ∀ a ∈ as, isArg a = true) (hx : Expect as (callOf g ns) y)
    (hg : Fn (cs! "length") g) (hn : Single (cs! "x") ns x) (hc : oneSide (cs! "length") z) : Hits expectLength z := by
  obtain ⟨f0, args, h1, rfl, rfl⟩ := call_items h (expect_ne hx) ha
  unfold oneSide ordered at hc
  rw [argsOf_of h1] at hc
  have hl : (items args).length = 2 := by simpa using hl
  have hl' : (items args).length ≤ 2 := by omega
  obtain ⟨o0, e0, k1, k2, k3⟩ := expect_values hx (hc.1 hl)
  have hnot : ¬ CallOf (cs! "length") y := fun h => hc.2 _ _ hx ⟨⟨_, _, hg, rfl⟩, h⟩
  unfold Hits expectLength
  simp only [h1, Option.bind_eq_bind, Option.bind_some, expect_is hf, guard_true, k1, k2, hl']
  rcases k3 with ⟨e1, rfl⟩ | ⟨rfl, e2⟩
  · obtain ⟨g0, args2, w0, h2, h3, hl2, hw, _⟩ := single_value e1 hn
    have hno : calls (cs! "length") e0 = false := bool_false fun h => hnot (callOf_calls h (by decide))
    simp only [calls_of e1 hg, if_true, Option.bind_some, hno, Bool.not_false, guard_true, h2, hw]
    rfl
  · obtain ⟨g0, args2, w0, h2, h3, hl2, hw, _⟩ := single_value e2 hn
    have hno : calls (cs! "length") o0 = false := bool_false fun h => hnot (callOf_calls h (by decide))
    simp only [hno, calls_of e2 hg, if_true, Bool.false_eq_true, if_false, Option.bind_some, Bool.not_false, guard_true, h2, hw]
    rfl

theorem found_expectType {z f g as ns x y} (h : bare z.e = callOf f as) (hf : ExpectEqual f) (hl : as.length = 2) (ha : ∀ a ∈ as, isArg a = true) (hx : Expect as (callOf g ns) y)
    (hg : Fn (cs! "typeof") g) (hn : Single (cs! "x") ns x) (hc : oneSide (cs! "typeof") z) : Hits expectType z := by
  obtain ⟨f0, args, h1, rfl, rfl⟩ := call_items h (expect_ne hx) ha
  unfold oneSide ordered at hc
  rw [argsOf_of h1] at hc
  have hl : (items args).length = 2 := by simpa using hl
  have hl' : (items args).length ≤ 2 := by omega
  obtain ⟨o0, e0, k1, k2, k3⟩ := expect_values hx (hc.1 hl)
  have hnot : ¬ CallOf (cs! "typeof") y := fun h => hc.2 _ _ hx ⟨⟨_, _, hg, rfl⟩, h⟩
  unfold Hits expectType
  simp only [h1, Option.bind_eq_bind, Option.bind_some, expect_is hf, if_true, guard_true, k1, k2, hl']
  rcases k3 with ⟨e1, rfl⟩ | ⟨rfl, e2⟩
  · obtain ⟨g0, args2, w0, h2, h3, hl2, hw, _⟩ := single_value e1 hn
    simp only [calls_of e1 hg, if_true, Option.bind_some, h2, hw]
    rfl
  · obtain ⟨g0, args2, w0, h2, h3, hl2, hw, _⟩ := single_value e2 hn
    have hno : calls (cs! "typeof") o0 = false := bool_false fun h => hnot (callOf_calls h (by decide))
    simp only [hno, calls_of e2 hg, if_true, Bool.false_eq_true, if_false, Option.bind_some, h2, hw]
    rfl

theorem types_lookup {name ty : Str} (h : isType name ty) : ∃ ty', typeNames.lookup name = some ty' := by
  obtain ⟨t, ht, rfl, _⟩ := h
  simp only [List.mem_cons, List.not_mem_nil, or_false] at ht
  rcases ht with rfl | rfl | rfl | rfl | rfl | rfl | rfl | rfl | rfl | rfl | rfl | rfl | rfl <;> exact Option.isSome_iff_exists.mp (by decide)

theorem found_expectType_true {z f g as ns x name ty} (h : bare z.e = callOf f as) (hf : Fn (cs! "expect_true") f) (hs : Single (cs! "object") as (callOf g ns)) (hg : Fn name g)
    (ht : isType name ty) (hn : Single (cs! "x") ns x) : Hits expectType z := by
  obtain ⟨f0, args, v0, h1, rfl, hl, hv, hb⟩ := single_value h hs
  obtain ⟨g0, args2, w0, h2, rfl, hl2, hw, _⟩ := single_value hb hn
  obtain ⟨ty', ht⟩ := types_lookup ht
  have hl : (items args).length ≤ 1 := by omega
  unfold Hits expectType
  simp only [h1, Option.bind_eq_bind, Option.bind_some, expect_not_is hf (by decide) (by decide), fn_bare hf, guard_true, hl, hv, h2, fn_bare hg, ht, hw]
  rfl

theorem found_expectS3Class {z f g as ns x y} (h : bare z.e = callOf f as) (hf : ExpectEqual f) (hl : as.length = 2) (ha : ∀ a ∈ as, isArg a = true) (hx : Expect as (callOf g ns) y)
    (hg : Fn (cs! "class") g) (hy : Const .str y) (hn : Single (cs! "x") ns x) (hc : s3Class z) : Hits expectS3Class z := by
  obtain ⟨f0, args, h1, rfl, rfl⟩ := call_items h (expect_ne hx) ha
  unfold s3Class twoOrdered ordered at hc
  rw [argsOf_of h1] at hc
  have hl : (items args).length = 2 := by simpa using hl
  have hl' : (items args).length ≤ 2 := by omega
  obtain ⟨o0, e0, k1, k2, k3⟩ := expect_values hx (hc.1 hl)
  obtain ⟨oa, a1, v1⟩ := valueBy_inv k1
  obtain ⟨ea, a2, v2⟩ := valueBy_inv k2
  obtain ⟨s, rfl⟩ := hy
  have hs : s.filter (fun c => c ≠ '"' ∧ c ≠ '\'') ∉ ignoredClasses := hc.2 _ _ hx
  unfold Hits expectS3Class
  simp only [h1, Option.bind_eq_bind, Option.bind_some, expect_is hf, guard_true, a1, a2, hl', v1, v2]
  rcases k3 with ⟨e1, e2⟩ | ⟨e2, e1⟩ <;> obtain ⟨g0, args2, w0, h2, h3, hl2, hw, _⟩ := single_value e1 hn
  · have : ∃ g, e0 = .atom g .str s := by cases e0 <;> simp [bare] at e2; exact ⟨_, by rw [e2.1, e2.2]⟩
    obtain ⟨g, rfl⟩ := this
    simp only [h2, Option.isSome_some, if_true, calls_of e1 hg, Option.bind_some, guard_true, hw, hs, not_false_eq_true]
    rfl
  · have : ∃ g, o0 = .atom g .str s := by cases o0 <;> simp [bare] at e2; exact ⟨_, by rw [e2.1, e2.2]⟩
    obtain ⟨g, rfl⟩ := this
    have h0 : asCall (.atom g .str s) = none := rfl
    simp only [h0, h2, Option.isSome_none, Bool.false_eq_true, if_false, if_true, calls_of e1 hg, Option.bind_some, guard_true, hw, hs, not_false_eq_true]
    rfl

theorem nested_here {z : Zip} {outer inner : Str} {q} (hp : piped z.fs = false) (hne : outer ≠ inner) (h : nested z outer inner = some q) : q.2 = z := by
  obtain ⟨fs, e⟩ := z
  simp only [nested, Option.bind_eq_bind, Option.bind_eq_some_iff, Option.orElse_eq_orElse, Prod.exists] at h
  obtain ⟨f, args, h1, _, hf, h⟩ := h
  have hf := guard_some hf
  rcases orElse_some h with h | h
  · simp only [Option.bind_eq_some_iff, Prod.exists, Option.some.injEq] at h
    obtain ⟨a, _, v, _, f2, _, _, _, _, rfl⟩ := h
    rfl
  · exfalso
    simp only [Option.bind_eq_some_iff, Prod.exists] at h
    obtain ⟨p, hup, l, o, r, hb, _, ho, h⟩ := h
    have ho := guard_some ho
    subst ho
    cases fs with
    | nil => cases hup
    | cons fr fs =>
      cases hup
      obtain ⟨g, hb⟩ := asBin_eq hb
      have hl : l = e := by
        cases fr <;> simp only [Frame.fill] at hb <;> cases hb
        · rfl
        · simp [piped] at hp
      subst hl
      obtain ⟨gc, gc2, rfl⟩ := asCall_eq h1
      rcases orElse_some h with h | h
      · simp only [Option.bind_eq_some_iff, Prod.exists] at h
        obtain ⟨f2, args2, h2, _, hf2, _⟩ := h
        cases h2
        exact hne (hf.symm.trans (guard_some hf2))
      · simp [asBin] at h

theorem idx_of_value {as : List Node} {n : Str} {pos : Nat} {v : Node} (h : valueBy as n pos = some v) : ∃ i, idxBy as n pos = some i ∧ as[i]?.bind argValue = some v := by
  suffices hs : ∃ i, idxBy as n pos = some i by
    obtain ⟨i, hi⟩ := hs
    exact ⟨i, hi, by rw [← idxBy_value hi]; exact h⟩
  unfold idxBy
  cases hf : as.findIdx? (fun a => decide (argName a = some n)) with
  | some i => exact ⟨i, rfl⟩
  | none =>
    have hno : argByName as n = none := List.find?_eq_none.mpr fun a ha => by
      have := List.findIdx?_eq_none_iff.mp hf a ha; simpa using this
    unfold valueBy argBy at h
    rw [hno] at h
    simp only at h ⊢
    cases hi : (freeIdx as)[pos]? with
    | some i => exact ⟨i, rfl⟩
    | none =>
      exfalso
      have h1 := List.getElem?_eq_none_iff.mp hi
      have h2 : (unnamedArgs as).length ≤ (freeIdx as).length := by rw [← freeIdx_map]; exact List.length_filterMap_le ..
      rw [List.getElem?_eq_none_iff.mpr (by omega)] at h
      cases h

theorem bind_some_of {α β γ : Type} {o : Option α} {a : α} (h : o = some a) {k : α → Option β} {g : β → γ} {c : Option γ} (hk : Option.map g (k a) = c) :
    Option.map g (Option.bind o k) = c := by
  subst h; exact hk

theorem found_expectMatch {z f g as ns x p rest} {b : Bool} (h : bare z.e = callOf f as) (hf : Fn (if b then cs! "expect_true" else cs! "expect_false") f)
    (hs : Single (cs! "object") as (callOf g ns)) (hg : Fn (cs! "grepl") g) (hp : matchArg [cs! "pattern", cs! "x"] ns (cs! "pattern") = some p)
    (hx : matchArg [cs! "pattern", cs! "x"] ns (cs! "x") = some x)
    (hr : rest = ns.filter (fun a => (nameOf a).isSome ∧ nameOf a ≠ some (cs! "pattern") ∧ nameOf a ≠ some (cs! "x"))) (hl : rest.length + 2 = ns.length)
    (ha : ∀ a ∈ ns, isArg a = true) (hc : matchOrdered z) :
    Hits (expectMatch · (if b then cs! "expect_true" else cs! "expect_false") (if b then cs! "expect_match" else cs! "expect_no_match")) z := by
  obtain ⟨f0, args, v0, h1, rfl, hl1, hv, hb⟩ := single_value h hs
  obtain ⟨g0, gargs, h2, rfl, rfl⟩ := call_items hb (items_ne hp) ha
  have hord : InOrder [cs! "pattern", cs! "x"] (items gargs) := by
    obtain ⟨a, ham, hav⟩ := valueBy_from hv
    have := hc.2 a (by rw [argsOf_of h1]; exact ham) v0 hav
    rwa [argsOf_of h2] at this
  obtain ⟨p0, kp, _⟩ := matched_first hp
  obtain ⟨x0, kx, _⟩ := matched_second hx (by decide) hord
  obtain ⟨ip, hip, vp⟩ := idx_of_value kp
  obtain ⟨ix, hix, vx⟩ := idx_of_value kx
  have hne := idx_ne hip hix
  have hfilter := filter_bare (as := items gargs) (p := fun o => o.isSome ∧ o ≠ some (cs! "pattern") ∧ o ≠ some (cs! "x"))
  rw [hr, hfilter, List.length_map, List.length_map] at hl
  have hrest : (((items gargs).zipIdx.filter (fun q => q.2 ≠ ip ∧ q.2 ≠ ix)).map (·.1)).all (fun a => (argName a).isSome) = true := by
    rw [List.all_eq_true]
    intro a hm
    obtain ⟨⟨a', j⟩, hm0, rfl⟩ := List.mem_map.mp hm
    obtain ⟨hm, hj⟩ := List.mem_filter.mp hm0
    have hget := List.mem_zipIdx_iff_getElem?.mp hm
    simp only [decide_eq_true_eq] at hj hget
    refine Option.isSome_iff_ne_none.mpr fun hnone => ?_
    have hlen : ((items gargs).zipIdx.filter (fun q => !decide ((argName q.1).isSome ∧ argName q.1 ≠ some (cs! "pattern") ∧ argName q.1 ≠ some (cs! "x")))).length = 2 := by
      have hs := filter_not_length (items gargs) (fun a => decide ((argName a).isSome ∧ argName a ≠ some (cs! "pattern") ∧ argName a ≠ some (cs! "x")))
      have := filter_zipIdx (as := items gargs) (q := fun a => !decide ((argName a).isSome ∧ argName a ≠ some (cs! "pattern") ∧ argName a ≠ some (cs! "x"))) 0
      rw [this, List.length_map] at hs
      omega
    have hbad : ∀ {i : Nat} {n : Str} {pos : Nat}, idxBy (items gargs) n pos = some i → n = cs! "pattern" ∨ n = cs! "x" →
        i ∈ ((items gargs).zipIdx.filter (fun q => !decide ((argName q.1).isSome ∧ argName q.1 ≠ some (cs! "pattern") ∧ argName q.1 ≠ some (cs! "x")))).map (·.2) := by
      intro i n pos hi hn
      rcases idxBy_cases hi with ⟨a, h, hnm⟩ | ⟨_, hfr⟩
      · refine List.mem_map.mpr ⟨(a, i), List.mem_filter.mpr ⟨List.mem_zipIdx_iff_getElem?.mpr (by simpa using h), ?_⟩, rfl⟩
        rcases hn with rfl | rfl <;> simp [hnm]
      · obtain ⟨a, h, hnm⟩ := freeIdx_name hfr
        refine List.mem_map.mpr ⟨(a, i), List.mem_filter.mpr ⟨List.mem_zipIdx_iff_getElem?.mpr (by simpa using h), ?_⟩, rfl⟩
        simp [hnm]
    have h3 := nodup_length (qs := [ip, ix, j])
      (l := ((items gargs).zipIdx.filter (fun q => !decide ((argName q.1).isSome ∧ argName q.1 ≠ some (cs! "pattern") ∧ argName q.1 ≠ some (cs! "x")))).map (·.2))
      (by simp [hne, Ne.symm hj.1, Ne.symm hj.2]) (by
        intro q hq
        simp only [List.mem_cons, List.not_mem_nil, or_false] at hq
        rcases hq with rfl | rfl | rfl
        · exact hbad hip (Or.inl rfl)
        · exact hbad hix (Or.inr rfl)
        · exact List.mem_map.mpr ⟨(a', q), List.mem_filter.mpr ⟨hm, by simp [hnone]⟩, rfl⟩)
    rw [List.length_map, hlen] at h3
    simp at h3
  have hnest : (nested z (if b then cs! "expect_true" else cs! "expect_false") (cs! "grepl")).all (fun q => q.2 = z) = true := by
    cases hn : nested z (if b then cs! "expect_true" else cs! "expect_false") (cs! "grepl") with
    | none => rfl
    | some q =>
      have := nested_here hc.1 (by cases b <;> decide) hn
      simpa using this
  have hl1 : (items args).length ≤ 1 := by omega
  unfold Hits expectMatch
  simp only [h1, Option.bind_eq_bind, Option.bind_some, fn_bare hf, guard_true, hnest, hv, h2, fn_bare hg]
  refine bind_some_of hip ?_
  refine bind_some_of hix ?_
  simp only [Option.bind_some, vx, vp, hl1, guard_true, hrest]
  rfl

theorem dropWhile_sub {q : Char → Bool} {c : Char} : ∀ {s : Str}, c ∈ s.dropWhile q → c ∈ s
  | [], h => h
  | d :: s, h => by
    rw [List.dropWhile_cons] at h
    split at h
    · exact List.mem_cons_of_mem _ (dropWhile_sub h)
    · exact h

theorem fixed_pattern {s : Str} (h : ∀ c ∈ s, c ∉ metaChars) : isFixedPattern s = true := by
  unfold isFixedPattern
  rw [List.all_eq_true]
  intro c hc
  have := dropWhile_sub hc
  rw [List.mem_reverse] at this
  have := h c (dropWhile_sub this)
  simpa [metaChars] using this

theorem found_fixedRegex {z name params f as s} (h : bare z.e = callOf f as) (hf : Fn name f)
    (hn : (name ∈ [cs! "grep", cs! "regexpr", cs! "gregexpr", cs! "regexec", cs! "grepl"] ∧ params = [cs! "pattern", cs! "x"]) ∨
        (name ∈ [cs! "sub", cs! "gsub"] ∧ params = [cs! "pattern", cs! "replacement", cs! "x"]))
    (hl : (as.filter (fun a => (nameOf a).isNone)).length ≤ params.length) (hno : ∀ a ∈ as, nameOf a ≠ some (cs! "fixed") ∧ nameOf a ≠ some (cs! "ignore.case"))
    (hp : matchArg params as (cs! "pattern") = some (.atom .none .str s)) (hs : ∀ c ∈ s, c ∉ metaChars) (ha : ∀ a ∈ as, isArg a = true) : Hits fixedRegex z := by
  obtain ⟨f0, args, h1, rfl, rfl⟩ := call_items h (items_ne hp) ha
  rw [filter_bare (p := fun o => o.isNone), List.length_map] at hl
  have hno1 : argByName (items args) (cs! "fixed") = none := List.find?_eq_none.mpr fun a ha => by
    have := (hno (bare a) (List.mem_map_of_mem ha)).1; rw [nameOf_bare] at this; simpa using this
  have hno2 : argByName (items args) (cs! "ignore.case") = none := List.find?_eq_none.mpr fun a ha => by
    have := (hno (bare a) (List.mem_map_of_mem ha)).2; rw [nameOf_bare] at this; simpa using this
  have hpos : ∀ n pos, argByName (items args) n = none → params.length ≤ pos → valueBy (items args) n pos = none := by
    intro n pos h1 h2
    unfold valueBy argBy
    rw [h1]
    simp only
    rw [List.getElem?_eq_none_iff.mpr (by unfold unnamedArgs; omega)]
    rfl
  obtain ⟨p0, kp, hb⟩ : ∃ v0, valueBy (items args) (cs! "pattern") 0 = some v0 ∧ bare v0 = .atom .none .str s := by
    rcases hn with ⟨_, rfl⟩ | ⟨_, rfl⟩ <;> exact matched_first hp
  have : ∃ g, p0 = .atom g .str s := by cases p0 <;> simp [bare] at hb; exact ⟨_, by rw [hb.1, hb.2]⟩
  obtain ⟨g, rfl⟩ := this
  have hfix := fixed_pattern hs
  have hname := fn_bare hf
  unfold Hits fixedRegex
  simp only [h1, Option.bind_eq_bind, Option.bind_some, hname]
  rcases hn with ⟨hm, rfl⟩ | ⟨hm, rfl⟩ <;> simp only [List.length_cons, List.length_nil] at hpos <;> simp only [List.mem_cons, List.not_mem_nil, or_false] at hm
  · have v1 := hpos (cs! "fixed") 5 hno1 (by decide)
    have v2 := hpos (cs! "fixed") 4 hno1 (by decide)
    have v3 := hpos (cs! "ignore.case") 2 hno2 (by decide)
    rcases hm with rfl | rfl | rfl | rfl | rfl <;>
      simp [v1, v2, v3, kp, hfix, fixAt]
  · have v1 := hpos (cs! "fixed") 5 hno1 (by decide)
    have v3 := hpos (cs! "ignore.case") 3 hno2 (by decide)
    rcases hm with rfl | rfl <;>
      simp [v1, v3, kp, hfix, fixAt]

theorem found_sprintf {z f as ps} (h : bare z.e = callOf f as) (hf : Fn (cs! "sprintf") f) (hs : Single (cs! "fmt") as (.atom .none .str (render ps))) (ho : Ok ps)
    (hcv : convs ps = []) (hc : notPiped z) : Hits sprintfRule z := by
  obtain ⟨f0, args, v0, h1, rfl, hl, hv, hb⟩ := single_value h hs
  have : ∃ g, v0 = .atom g .str (render ps) := by cases v0 <;> simp [bare] at hb; exact ⟨_, by rw [hb.1, hb.2]⟩
  obtain ⟨g, rfl⟩ := this
  obtain ⟨a, ha, hav⟩ := valueBy_inv hv
  have hp : afterPipe z.fs = false := by
    unfold notPiped at hc
    revert hc
    generalize z.fs = fs
    unfold piped afterPipe
    split <;> simp
  have hu := fun n => (C54_useless ho n (plainText ps)).mpr ⟨hcv, rfl⟩
  have hr : sprintfReport z = some (.useless (plainText ps)) := by
    unfold sprintfReport
    simp only [h1, Option.bind_eq_bind, Option.bind_some, fn_bare hf, guard_true, hp, Bool.not_false, ha, hav, hu]
  simp [Hits, sprintfRule, hr, fixAt]

end Jarl
