import Verif.Lemmas.RFound
/-!
# C63: the rules find the code they document, part 1
-/
namespace Jarl
open Spec

theorem one_arg {args a : Node} (h : bare args = mkArgs [a]) (ha : isArg a = true) (hne : a ≠ .hole) : ∃ a0, items args = [a0] ∧ bare a0 = a := by
  have : (items args).map bare = [a] := by
    rw [← items_bare, h, items_mkArgs (by simpa using hne) (by simpa using ha)]
  obtain ⟨a0, h1, h2⟩ := List.map_eq_singleton_iff.mp this
  exact ⟨a0, h1, h2⟩

theorem nested_found {z : Zip} {f g : Node} {as : List Node} {outer inner : Str} (h : bare z.e = callOf f [callOf g as]) (hf : Fn outer f) (hg : Fn inner g) :
    ∃ c, nested z outer inner = some (c, z) := by
  obtain ⟨f0, args, h1, rfl, h3⟩ := call_inv h
  obtain ⟨a0, h4, h5⟩ := one_arg h3 rfl (by simp [callOf])
  obtain ⟨g0, args2, h6, rfl, h7⟩ := call_inv h5
  have hn : argName a0 = none := by rw [← nameOf_bare, h5]; rfl
  have hv : argValue a0 = some a0 := by cases a0 <;> simp [bare, callOf] at h5 <;> rfl
  refine ⟨toks args2, ?_⟩
  simp [nested, h1, fn_bare hf, h4, unnamedArgs, hn, hv, h6, fn_bare hg]

theorem found_anyIsNa {z f g as} (h : bare z.e = callOf f [callOf g as]) (hf : Fn (cs! "any") f) (hg : Fn (cs! "is.na") g) : Hits anyIsNa z := by
  obtain ⟨c, hc⟩ := nested_found h hf hg; simp [Hits, anyIsNa, hc, fixAt]

theorem found_anyDuplicated {z f g as} (h : bare z.e = callOf f [callOf g as]) (hf : Fn (cs! "any") f) (hg : Fn (cs! "duplicated") g) : Hits anyDuplicated z := by
  obtain ⟨c, hc⟩ := nested_found h hf hg; simp [Hits, anyDuplicated, hc, fixAt]

theorem found_whichGrepl {z f g as} (h : bare z.e = callOf f [callOf g as]) (hf : Fn (cs! "which") f) (hg : Fn (cs! "grepl") g) : Hits whichGrepl z := by
  obtain ⟨c, hc⟩ := nested_found h hf hg; simp [Hits, whichGrepl, hc, fixAt]

theorem found_lengthLevels {z f g as} (h : bare z.e = callOf f [callOf g as]) (hf : Fn (cs! "length") f) (hg : Fn (cs! "levels") g) : Hits lengthLevels z := by
  obtain ⟨c, hc⟩ := nested_found h hf hg; simp [Hits, lengthLevels, hc, fixAt]

theorem found_allEqualFalse {z f g as} (h : bare z.e = callOf f [callOf g as]) (hf : Fn (cs! "isFALSE") f) (hg : Fn (cs! "all.equal") g) : Hits allEqualFalse z := by
  obtain ⟨c, hc⟩ := nested_found h hf hg; simp [Hits, allEqualFalse, hc, fixAt]

theorem found_anyIsNa2 {z n x} (h : bare z.e = special n (cs! "in") x) (hn : Const .na n) (hc : notBoth (Const .na) z) : Hits anyIsNa2 z := by
  obtain ⟨l, r, g, he, rfl, rfl⟩ := bin_inv h
  have hr : isAtom .na r = false := by
    cases hr : isAtom .na r with
    | false => rfl
    | true => exact absurd ⟨hn, isAtom_bare.mp hr⟩ (hc _ _ _ _ he)
  simp [Hits, anyIsNa2, asBin, he, const_bare hn, hr, fixAt]

theorem found_lengthTest {z f l o r} (h : bare z.e = callOf f [.bin l .none o r]) (hf : Fn (cs! "length") f) (ho : o ∈ cmpOps) : Hits lengthTest z := by
  obtain ⟨f0, args, h1, rfl, h3⟩ := call_inv h
  obtain ⟨a0, h4, h5⟩ := one_arg h3 rfl (by simp)
  obtain ⟨l, r, g, rfl, rfl, rfl⟩ := bin_inv h5
  have hc : isComparison o = true := by simp [cmpOps] at ho; rcases ho with rfl | rfl | rfl | rfl | rfl | rfl <;> rfl
  simp [Hits, lengthTest, h1, fn_bare hf, h4, argValue, asBin, hc, fixAt]

theorem underBang_of {fs : List Frame} : underBang fs = true ↔ OneBang fs := by
  unfold underBang OneBang
  split <;> simp_all

theorem argsOf_of {e f args : Node} (h : asCall e = some (f, args)) : argsOf e = items args := by
  cases e <;> simp [asCall] at h
  split at h <;> simp_all
  obtain ⟨rfl, rfl⟩ := h
  simp_all [argsOf]

theorem found_outerNegation {z f x} (h : bare z.e = callOf f [.un .none .bang x]) (hf : Text (cs! "any") f ∨ Text (cs! "all") f) (hc : notNegated z) : Hits outerNegation z := by
  obtain ⟨f0, args, h1, rfl, h3⟩ := call_inv h
  obtain ⟨a0, h4, h5⟩ := one_arg h3 rfl (by simp)
  obtain ⟨x, g, rfl, rfl⟩ := un_inv h5
  have hb : underBang z.fs = false := by
    cases hb : underBang z.fs with
    | false => rfl
    | true => exact absurd (underBang_of.mp hb) hc.1
  have hx : asUn x = none := by
    have := hc.2 (.un g .bang x) (by rw [argsOf_of h1, h4]; simp)
    cases x <;> simp [asUn]
    exact absurd rfl (this g .bang _ _ _)
  by_cases ha : textIs (cs! "any") f0 = true
  · simp [Hits, outerNegation, hb, h1, ha, h4, argValue, asUn_un, hx, fixAt]
  · have hall : textIs (cs! "all") f0 = true := by
      rcases hf with h | h
      · exact absurd (text_bare h) ha
      · exact text_bare h
    simp [Hits, outerNegation, hb, h1, ha, hall, h4, argValue, asUn_un, hx, fixAt]

theorem found_redundantIfelse {z f as name p1 p2 p3 c t e} {b : Bool} (h : bare z.e = callOf f as) (hf : Fn name f) (hp : ifelseParams name = some (p1, p2, p3)) (hl : as.length = 3)
    (ha : ∀ a ∈ as, isArg a = true) (m1 : matchArg [p1, p2, p3] as p1 = some c) (m2 : matchArg [p1, p2, p3] as p2 = some t) (m3 : matchArg [p1, p2, p3] as p3 = some e)
    (ht : Const (if b then .false else .true) t) (he : Const (if b then .true else .false) e) (hc : ifelseOrdered z) : Hits redundantIfelse z := by
  obtain ⟨f0, args, h1, rfl, rfl⟩ := call_items h (by rintro rfl; simp at hl) ha
  have hn := fn_bare hf
  simp only [ifelseOrdered, ordered, argsOf_of h1] at hc
  have hl : (items args).length = 3 := by simpa using hl
  have key : ∀ {c' t' e'}, valueBy (items args) p1 0 = some c' → valueBy (items args) p2 1 = some t' → valueBy (items args) p3 2 = some e' → bare t' = t → bare e' = e → Hits redundantIfelse z := by
    rintro c' t' e' k1 k2 k3 rfl rfl
    have k4 := const_bare ht
    have k5 := const_bare he
    unfold ifelseParams at hp
    split at hp
    · next hname =>
      cases hp
      have hname : fnName f0 = cs! "ifelse" ∨ fnName f0 = cs! "fifelse" := by rw [hn]; exact hname
      cases b <;> simp at k4 k5
      · simp [Hits, redundantIfelse, h1, hname, hl, k1, k2, k3, k4, k5, fixAt]
      · have k6 : isAtom .true t' = false := by revert k4; cases t' <;> simp [isAtom]; rintro rfl; simp
        simp [Hits, redundantIfelse, h1, hname, hl, k1, k2, k3, k4, k5, k6, fixAt]
    · split at hp
      · next hno hname =>
        cases hp
        have hno : ¬ (fnName f0 = cs! "ifelse" ∨ fnName f0 = cs! "fifelse") := by rw [hn]; exact hno
        have hname : fnName f0 = cs! "if_else" := by rw [hn]; exact hname
        cases b <;> simp at k4 k5
        · simp [Hits, redundantIfelse, h1, hname, hl, k1, k2, k3, k4, k5, fixAt]
        · have k6 : isAtom .true t' = false := by revert k4; cases t' <;> simp [isAtom]; rintro rfl; simp
          simp [Hits, redundantIfelse, h1, hname, hl, k1, k2, k3, k4, k5, k6, fixAt]
      · cases hp
  have hd : (p2 ≠ p1 ∧ p3 ≠ p1 ∧ p3 ≠ p2) ∧ InOrder [p1, p2, p3] (items args) := by
    unfold ifelseParams at hp
    split at hp
    · cases hp; exact ⟨by decide, hc.1⟩
    · split at hp
      · cases hp; exact ⟨by decide, hc.2⟩
      · cases hp
  obtain ⟨c', k1, _⟩ := matched_first m1
  obtain ⟨t', k2, k2'⟩ := matched_second m2 hd.1.1 hd.2
  obtain ⟨e', k3, k3'⟩ := matched_third m3 hd.1.2.1 hd.1.2.2 hd.2
  exact key k1 k2 k3 k2' k3'

theorem inCondition_of {fs : List Frame} : CondOf fs → inCondition fs = true := by
  unfold CondOf inCondition
  split <;> simp

theorem found_class {a b : Node} {g x s : Node} (hg : Fn (cs! "class") g) (hx : x ≠ .hole) (hs : Const .str s)
    (h : (bare a = callOf g [x] ∧ bare b = s) ∨ (bare a = s ∧ bare b = callOf g [x])) : ∃ q, classAndString a b = some q := by
  have key : ∀ {c d : Node}, bare c = callOf g [x] → bare d = s → (∃ f args i, asCall c = some (f, args) ∧ fnName f = cs! "class" ∧ isAtom .str d = true ∧ (items args)[0]? = some i) := by
    rintro c d h0 rfl
    obtain ⟨f0, args, h1, rfl, h3⟩ := call_inv h0
    have hne : items args ≠ [] := by
      intro h0
      have := items_bare args
      rw [h0, h3] at this
      have h4 : mkArgs [x] = x := rfl
      rw [h4, items, if_neg hx] at this
      revert this; cases x <;> simp [argList]
    cases hi : items args with
    | nil => exact absurd hi hne
    | cons i is => exact ⟨f0, args, i, h1, fn_bare hg, const_bare hs, by rw [hi]; rfl⟩
  rcases h with ⟨h1, h2⟩ | ⟨h1, h2⟩
  · obtain ⟨f, args, i, k1, k2, k3, k4⟩ := key h1 h2
    refine ⟨(trimmed i, trimmed b), ?_⟩
    simp [classAndString, k1, k2, k3, k4]
  · obtain ⟨f, args, i, k1, k2, k3, k4⟩ := key h2 h1
    have hno : asCall a = none := by
      obtain ⟨t, rfl⟩ := hs
      cases a <;> simp [bare] at h1 <;> rfl
    refine ⟨(trimmed i, trimmed a), ?_⟩
    simp [classAndString, k1, k2, k3, k4, hno]

theorem found_classEquals {z g x s l r o} (h : bare z.e = .bin l .none o r) (hg : Fn (cs! "class") g) (hx : x ≠ .hole) (hs : Const .str s)
    (hlr : (l = callOf g [x] ∧ r = s) ∨ (l = s ∧ r = callOf g [x])) (ho : o = .eq2 ∨ o = .ne ∨ o = .special (cs! "in")) (hc : comparedCondition z) : Hits classEquals z := by
  obtain ⟨l, r, g1, he, rfl, rfl⟩ := bin_inv h
  obtain ⟨⟨c, d⟩, hq⟩ := found_class hg hx hs hlr
  simp [Hits, classEquals, asBin, he, ho, inCondition_of (hc _ _ _ _ he), hq, fixAt]

theorem two_args {args a b : Node} (h : bare args = mkArgs [a, b]) (hb : isArg b = true) : ∃ a0 b0, items args = [a0, b0] ∧ bare a0 = a ∧ bare b0 = b := by
  cases args <;> simp [bare, mkArgs] at h
  next a0 g b0 =>
  obtain ⟨rfl, rfl⟩ := h
  refine ⟨a0, b0, ?_, rfl, rfl⟩
  have : argList b0 = [b0] := by
    cases b0 <;> first | rfl | cases hb
  simp [items, argList, this]

theorem found_classIdentical {z f g x s a b} (h : bare z.e = callOf f [a, b]) (hf : Fn (cs! "identical") f) (_ha : isArg a = true) (hb : isArg b = true) (hg : Fn (cs! "class") g)
    (hx : x ≠ .hole) (hs : Const .str s)
    (hab : (valueOf a = some (callOf g [x]) ∧ valueOf b = some s) ∨ (valueOf a = some s ∧ valueOf b = some (callOf g [x]))) : Hits classIdentical z := by
  obtain ⟨f0, args, h1, rfl, h3⟩ := call_inv h
  obtain ⟨a0, b0, h4, rfl, rfl⟩ := two_args h3 hb
  obtain ⟨va, hva, vb, hvb, hlr⟩ : ∃ va, argValue a0 = some va ∧ ∃ vb, argValue b0 = some vb ∧ ((bare va = callOf g [x] ∧ bare vb = s) ∨ (bare va = s ∧ bare vb = callOf g [x])) := by
    rcases hab with ⟨k1, k2⟩ | ⟨k1, k2⟩ <;>
      (obtain ⟨va, hva, k3⟩ := value_bare k1; obtain ⟨vb, hvb, k4⟩ := value_bare k2)
    · exact ⟨va, hva, vb, hvb, Or.inl ⟨k3, k4⟩⟩
    · exact ⟨va, hva, vb, hvb, Or.inr ⟨k3, k4⟩⟩
  obtain ⟨⟨c, d⟩, hq⟩ := found_class hg hx hs hlr
  simp [Hits, classIdentical, h1, fn_bare hf, h4, hva, hvb, hq, fixAt]

end Jarl
