import Verif.Props.RFound
/-!
# C63: the rules find the code they document, part 2
-/
namespace Jarl
open Spec

theorem bool_false {b : Bool} (h : ¬ b = true) : b = false := by cases b <;> simp_all

theorem found_equalsSpecial {special : Node → Bool} {P : Node → Prop} (hsp : ∀ n, special n = true ↔ P (bare n)) (name : Str) (both : Bool) {z l r x s o}
    (h : bare z.e = .bin l .none o r) (hlr : (l = x ∧ r = s) ∨ (l = s ∧ r = x ∧ o ≠ .special (cs! "in"))) (hs : P s) (ho : o = .eq2 ∨ o = .ne ∨ o = .special (cs! "in"))
    (hc : notBoth P z) : Hits (equalsSpecial special name both) z := by
  obtain ⟨l, r, g, he, rfl, rfl⟩ := bin_inv h
  have hb := hc _ _ _ _ he
  have ho' : o = .eq2 ∨ o = .ne ∨ decide (o = .special (cs! "in")) = true := by simpa using ho
  have key : special l = !special r → (special l = true → o ≠ .special (cs! "in")) → Hits (equalsSpecial special name both) z := by
    intro k1 k2
    have k3 : (both || !(decide (o = .special (cs! "in")) && special l)) = true := by
      cases hl : special l <;> simp [hl] at k2 ⊢
      exact Or.inr k2
    have k4 : (special l != special r) = true := by rw [k1]; cases special r <;> rfl
    unfold Hits equalsSpecial
    rw [he]
    simp only [asBin, Option.bind_eq_bind, Option.bind_some]
    simp only [ho', k3, k4, guard_true, Option.bind_some]
    rfl
  rcases hlr with ⟨rfl, rfl⟩ | ⟨rfl, rfl, hin⟩
  · have hr := (hsp r).mpr hs
    have hl := bool_false fun hl => hb ⟨(hsp l).mp hl, hs⟩
    exact key (by rw [hl, hr]; rfl) (by simp [hl])
  · have hl := (hsp l).mpr hs
    have hr := bool_false fun hr => hb ⟨hs, (hsp r).mp hr⟩
    exact key (by rw [hl, hr]; rfl) fun _ => hin

theorem na_iff (n : Node) :
    [cs! "NA", cs! "NA_character_", cs! "NA_integer_", cs! "NA_real_", cs! "NA_logical_", cs! "NA_complex_"].any (textIs · n) = true ↔ NaValue (bare n) := by
  unfold NaValue naTexts
  rw [List.any_eq_true]
  constructor
  · rintro ⟨t, ht, h⟩; exact ⟨t, ht, textIs_iff_text.mp h⟩
  · rintro ⟨t, ht, h⟩; exact ⟨t, ht, textIs_iff_text.mpr h⟩

theorem found_redundantEquals {z l r x c o} {b : Bool} (h : bare z.e = .bin l .none o r) (hlr : (l = x ∧ r = c) ∨ (l = c ∧ r = x)) (hc : Const (if b then .true else .false) c)
    (ho : o = .eq2 ∨ o = .ne) : Hits redundantEquals z := by
  obtain ⟨l, r, g, he, rfl, rfl⟩ := bin_inv h
  have : isAtom .true l = true ∨ isAtom .true r = true ∨ isAtom .false l = true ∨ isAtom .false r = true := by
    rcases hlr with ⟨_, rfl⟩ | ⟨rfl, _⟩ <;> cases b <;> simp at hc <;> simp [const_bare hc]
  unfold Hits redundantEquals
  rw [he]
  simp only [asBin, Option.bind_eq_bind, Option.bind_some, ho, guard_true]
  split
  · rfl
  split
  · rfl
  split
  · rfl
  split
  · rfl
  · simp_all

theorem found_repeat {z c b} (h : bare z.e = .whileE .none .none c .none b) (hc : Const .true c) : Hits repeatRule z := by
  obtain ⟨fs, e⟩ := z
  cases e <;> simp [bare] at h
  obtain ⟨rfl, rfl⟩ := h
  simp [Hits, repeatRule, const_bare hc, fixAt]

theorem found_zero {z k s} (h : bare z.e = .atom .none k ('.' :: s)) (hk : k = .double ∨ k = .complex) : Hits numericLeadingZero z := by
  obtain ⟨fs, e⟩ := z
  cases e <;> simp [bare] at h
  obtain ⟨rfl, rfl⟩ := h
  rcases hk with rfl | rfl <;> rfl

theorem tfAllowed_of {z : Zip} (h : plainUse z) : tfAllowed z.fs = true := by
  unfold plainUse at h
  generalize z.fs = fs at h ⊢
  unfold tfAllowed
  split
  · exact absurd rfl ((h _ _ rfl).1 _ _ _)
  · exact absurd rfl ((h _ _ rfl).2.1 _ _ _ _ _)
  · exact absurd rfl ((h _ _ rfl).2.2.1 _ _)
  · exact absurd rfl ((h _ _ rfl).2.2.2 _ _)
  · rfl

theorem found_symbol {z s} (h : bare z.e = sym s) (hs : s = cs! "T" ∨ s = cs! "F") (hc : plainUse z) : Hits trueFalseSymbol z := by
  have ht := tfAllowed_of hc
  obtain ⟨fs, e⟩ := z
  cases e <;> simp [bare, sym] at h
  obtain ⟨rfl, rfl⟩ := h
  simp only at ht
  rcases hs with rfl | rfl <;> simp [Hits, trueFalseSymbol, isAtom, textIs, ht]

theorem found_nesting {z a b t} (h : bare z.e = .ifE .none .none a .none (.braces .none (.scons (.ifE .none .none b .none t) [] .snil) .none)) : Hits unnecessaryNesting z := by
  obtain ⟨fs, e⟩ := z
  cases e <;> simp [bare] at h
  next g1 g2 c g3 th =>
  obtain ⟨rfl, h⟩ := h
  cases th <;> simp [bare] at h
  next g4 ss g5 =>
  cases ss <;> simp [bare] at h
  next e1 semis rest =>
  obtain ⟨h1, h2⟩ := h
  cases rest <;> simp [bare] at h2
  cases e1 <;> simp [bare] at h1
  simp [Hits, unnecessaryNesting, fixAt]

theorem one_iff {n : Node} (h : One (bare n)) : (textIs (cs! "1") n || textIs (cs! "1L") n) = true := by
  rcases h with h | h <;> simp [text_bare h]

theorem found_seq {z one g as name} (h : bare z.e = .bin one .none .colon (callOf g as)) (h1 : One one) (hg : Fn name g) (hn : name ∈ sizeFns) : Hits seq z := by
  obtain ⟨l, r, g1, he, rfl, hr⟩ := bin_inv h
  obtain ⟨f0, args, h2, rfl, h3⟩ := call_inv hr
  have h1 := one_iff h1
  simp only [Bool.or_eq_true] at h1
  simp [Hits, seq, asBin, he, h2, h1, fn_bare hg, hn, fixAt]

theorem found_seq2 {z f g as name} (h : bare z.e = callOf f [callOf g as]) (hf : Fn (cs! "seq") f) (hg : Fn name g) (hn : name ∈ sizeFns) : Hits seq2 z := by
  obtain ⟨f0, args, h1, rfl, h3⟩ := call_inv h
  obtain ⟨a0, h4, h5⟩ := one_arg h3 rfl (by simp [callOf])
  obtain ⟨g0, args2, h6, rfl, h7⟩ := call_inv h5
  have hn' : argName a0 = none := by rw [← nameOf_bare, h5]; rfl
  have hv : argValue a0 = some a0 := by cases a0 <;> simp [bare, callOf] at h5 <;> rfl
  simp [Hits, seq2, h1, fn_bare hf, h4, unnamedArgs, hn', hv, h6, fn_bare hg, hn, fixAt]

theorem byName_none {as : List Node} {n : Str} (h : ∀ a ∈ as, nameOf a ≠ some n) : argByName as n = none := by
  unfold argByName
  rw [List.find?_eq_none]
  intro a ha
  have := h a ha
  rw [nameOf_eq] at this
  simpa using this

theorem found_sampleInt {z f one n as} (h : bare z.e = callOf f (.bin one .none .colon n :: as)) (hf : Fn (cs! "sample") f) (h1 : One one) (_hne : as ≠ []) (ha : ∀ a ∈ as, isArg a = true)
    (hc : nobodyNamed (cs! "n") z) : Hits sampleInt z := by
  obtain ⟨f0, args, h2, rfl, h3⟩ := call_items h (by simp) (by
    intro a hm; simp at hm; rcases hm with rfl | hm
    · rfl
    · exact ha a hm)
  unfold nobodyNamed at hc
  rw [argsOf_of h2] at hc
  have hno := byName_none hc
  obtain ⟨a0, as0, h4, h5, h6⟩ := List.map_eq_cons_iff.mp h3
  obtain ⟨l, r, g, rfl, rfl, rfl⟩ := bin_inv h5
  have h1 := one_iff h1
  have hv : valueBy (items args) (cs! "n") 0 = some (.bin l g .colon r) := by
    unfold valueBy argBy
    rw [hno, h4]
    rfl
  unfold Hits sampleInt
  simp only [h2, Option.bind_eq_bind, Option.bind_some, fn_bare hf, guard_true, hv, asBin, h1]
  rfl

theorem found_grepv {z f as k g} (h : bare z.e = callOf f as) (hf : Fn (cs! "grep") f) (ha : ∀ a ∈ as, isArg a = true)
    (hm : .named .none g (cs! "value") .none (.atom .none .true k) ∈ as) : Hits grepv z := by
  obtain ⟨f0, args, h1, rfl, rfl⟩ := call_items h (by rintro rfl; simp at hm) ha
  obtain ⟨a, hm, he⟩ := List.mem_map.mp hm
  have hs : (argBy (items args) (cs! "value") 4).isSome = true := by
    have : (argByName (items args) (cs! "value")).isSome = true := by
      unfold argByName
      rw [List.find?_isSome]
      exact ⟨a, hm, by rw [← nameOf_bare, he]; simp [nameOf]⟩
    obtain ⟨b, hb⟩ := Option.isSome_iff_exists.mp this
    simp [argBy, hb]
  simp [Hits, grepv, h1, fn_bare hf, hs, fixAt]

theorem found_grepv_position {z f a b c d k} (h : bare z.e = callOf f [a, b, c, d, .atom .none .true k]) (hf : Fn (cs! "grep") f)
    (ha : ∀ e ∈ [a, b, c, d], nameOf e = none ∧ isArg e = true) : Hits grepv z := by
  obtain ⟨f0, args, h1, rfl, h3⟩ := call_items h (by simp) (by
    intro e he
    simp only [List.mem_cons, List.not_mem_nil, or_false] at he ha
    rcases he with he | he | he | he | he
    · exact (ha e (Or.inl he)).2
    · exact (ha e (Or.inr (Or.inl he))).2
    · exact (ha e (Or.inr (Or.inr (Or.inl he)))).2
    · exact (ha e (Or.inr (Or.inr (Or.inr he)))).2
    · subst he; rfl)
  have hun : ∀ e ∈ items args, argName e = none := by
    intro e he
    have := List.mem_map_of_mem (f := bare) he
    rw [h3] at this
    rw [← nameOf_bare]
    simp only [List.mem_cons, List.not_mem_nil, or_false] at this ha
    rcases this with he | he | he | he | he
    · exact (ha _ (Or.inl he)).1
    · exact (ha _ (Or.inr (Or.inl he))).1
    · exact (ha _ (Or.inr (Or.inr (Or.inl he)))).1
    · exact (ha _ (Or.inr (Or.inr (Or.inr he)))).1
    · rw [he]; rfl
  have hs : (argBy (items args) (cs! "value") 4).isSome = true := by
    have h4 : unnamedArgs (items args) = items args := by
      unfold unnamedArgs
      rw [List.filter_eq_self]
      intro e he; rw [hun e he]; rfl
    have h5 : (items args).length = 5 := by simpa using congrArg List.length h3
    unfold argBy
    split
    · rfl
    · rw [h4]; simp [h5]
  simp [Hits, grepv, h1, fn_bare hf, hs, fixAt]

end Jarl
