import Verif.Props.RValueText
/-!
# C79: fixes keep what the code computes
-/
namespace Jarl
open Spec

/-- Rules, with what they do not check themselves: about the code, and about what it computes. -/
def valueRules : List (Str × (Zip → Option Edit) × (Zip → Prop) × (Env → Node → Prop)) :=
  [(cs! "any_duplicated", anyDuplicated, onlyNested, fun _ e => own 1 e),
   (cs! "any_is_na", anyIsNa, onlyNested, fun _ e => own 1 e ∧ callTo [cs! "any"] e),
   (cs! "any_is_na", anyIsNa2, always, inNoNaN),
   (cs! "class_equals", classIdentical, onlyTwo, fun E e => own 1 e ∧ oneString E e),
   (cs! "class_equals", classEquals, sidesOne, fun E e => own 1 e ∧ (stringIn e ∨ oneString E e)),
   (cs! "coalesce", coalesce, tightSides, fun _ e => own 2 e),
   (cs! "comparison_negation", comparisonNegation, always, fun _ _ => True),
   (cs! "equals_na", equalsNa, always, inNA),
   (cs! "fixed_regex", fixedRegex, noOptions, fun E e => callTo [cs! "grepl", cs! "grep"] e ∧ plainRegex E),
   (cs! "is_numeric", isNumeric, always, fun E e => own 1 e ∧ noFactors E e),
   (cs! "length_levels", lengthLevels, onlyNested, fun _ e => own 1 e),
   (cs! "lengths", lengths, onlyFun, listApplied),
   (cs! "numeric_leading_zero", numericLeadingZero, always, fun _ e => ∃ s, e = .atom .none .double s),
   (cs! "outer_negation", outerNegation, onlyNegation, fun _ e => own 0 e),
   (cs! "redundant_equals", redundantEquals, always, logicalParts),
   (cs! "redundant_ifelse", redundantIfelse, always, fun E e => callTo [cs! "ifelse"] e ∧ logicalParts E e),
   (cs! "sample_int", sampleInt, firstPlain, fun E e => own 0 e ∧ drawn E e),
   (cs! "seq", seq, always, fun E e => own 1 e ∧ fromOne E e),
   (cs! "seq2", seq2, always, fun E e => own 1 e ∧ fromOne E e),
   (cs! "sort", sortRule, sortOptions, fun E e => own 1 e ∧ noneMissing E e),
   (cs! "string_boundary", stringBoundary, boundaryPlaces, fun E e => own 4 e ∧ plainStrings E e),
   (cs! "true_false_symbol", trueFalseSymbol, always, fun E _ => ownTF E),
   (cs! "unnecessary_nesting", unnecessaryNesting, always, noStringConditions),
   (cs! "which_grepl", whichGrepl, onlyNested, fun _ e => own 1 e)]

theorem ownHead_fn {name : Str} {f : Node} {as : List Node} (hf : Fn name f) {n : Nat} (h : own n (callOf f as)) : headName f = some name := by
  refine headName_of hf (as := as) ?_
  cases n with
  | zero => exact h
  | succ n => exact h.1

theorem ownHead_text {name : Str} {f : Node} {as : List Node} (hf : Text name f) {n : Nat} (h : own n (callOf f as)) : headName f = some name := by
  refine headName_text hf (as := as) ?_
  cases n with
  | zero => exact h
  | succ n => exact h.1

theorem own_sub {n : Nat} {e x : Node} (h : own (n + 1) e) (hx : x ∈ subs e) : own n x := h.2 x hx

theorem callTo_fn {names : List Str} {f : Node} {as : List Node} (h : callTo names (callOf f as)) : ∃ s ∈ names, headName f = some s := h

theorem headName_fn {name s : Str} {f : Node} (hf : Fn name f) (h : headName f = some s) : s = name := by
  rcases hf with rfl | ⟨pkg, i, rfl⟩
  · simpa [headName, sym] using h.symm
  · simp only [headName] at h
    split at h
    · cases h; rfl
    · cases h

theorem arg_mem {f g : Node} {as : List Node} : callOf g as ∈ subs (callOf f [callOf g as]) := by simp [subs, callOf, mkArgs, items, argList, valueOf]

theorem keeps_any_duplicated : KeepsValue anyDuplicated onlyNested (fun _ e => own 1 e) :=
  keeps_of_law law_anyDuplicated fun old new hl E v hd h => by
    generalize hq : (cs! "any_duplicated" : Str) = q at hl
    cases hl <;> first | (exact absurd hq (by decide)) | (cases ‹Bool› <;> exact absurd hq (by decide)) | skip
    case any_duplicated hf hg => exact value_any_duplicated (ownHead_fn hf hd) (ownHead_fn hg (own_sub hd arg_mem)) h

theorem keeps_any_is_na : KeepsValue anyIsNa onlyNested (fun _ e => own 1 e ∧ callTo [cs! "any"] e) :=
  keeps_of_law law_anyIsNa fun old new hl E v hd h => by
    generalize hq : (cs! "any_is_na" : Str) = q at hl
    cases hl <;> first | (exact absurd hq (by decide)) | (cases ‹Bool› <;> exact absurd hq (by decide)) | skip
    case any_is_na hf hg => exact value_any_is_na (ownHead_fn hf hd.1) (ownHead_fn hg (own_sub hd.1 arg_mem)) h
    case any_is_na_in hn => cases hd.2

theorem keeps_any_is_na_in : KeepsValue anyIsNa2 always inNoNaN :=
  keeps_of_law law_anyIsNa2 fun old new hl E v hd h => by
    generalize hq : (cs! "any_is_na" : Str) = q at hl
    cases hl <;> first | (exact absurd hq (by decide)) | (cases ‹Bool› <;> exact absurd hq (by decide)) | skip
    case any_is_na hf hg =>
      obtain ⟨⟨n, x, e⟩, _⟩ := hd
      cases e
    case any_is_na_in n x hn => exact value_any_is_na_in hn (hd.2 x (by simp [subs, special])) h

theorem keeps_class_identical : KeepsValue classIdentical onlyTwo (fun E e => own 1 e ∧ oneString E e) :=
  keeps_of_law law_classIdentical fun old new hl E v hd h => by
    generalize hq : (cs! "class_equals" : Str) = q at hl
    cases hl <;> first | (exact absurd hq (by decide)) | (cases ‹Bool› <;> exact absurd hq (by decide)) | skip
    case class_identical f g x s a b hf ha hb hg hx hs hab =>
      have hmem : callOf g [x] ∈ subs (callOf f [a, b]) := by
        rcases hab with ⟨h1, _⟩ | ⟨_, h1⟩
        · exact mem_subs_call (a := a) (by simp) (by simp [ha, hb]) (by simp) h1
        · exact mem_subs_call (a := b) (by simp) (by simp [ha, hb]) (by simp) h1
      exact value_class_identical (ownHead_fn hf hd.1) ha hb (ownHead_fn hg (own_sub hd.1 hmem)) hx hs hab (hd.2 _ hmem) h
    case class_equals g x s l r o hg hx hs hlr ho =>
      have hmem : callOf g [x] ∈ subs (.bin l .none o r) := by
        rcases hlr with ⟨h1, _⟩ | ⟨_, h1⟩ <;> rw [h1] <;> simp [subs]
      exact value_class_equals (ownHead_fn hg (own_sub hd.1 hmem)) hx hs hlr ho (hd.2 _ hmem) h

theorem keeps_class_equals : KeepsValue classEquals sidesOne (fun E e => own 1 e ∧ (stringIn e ∨ oneString E e)) :=
  keeps_of_law law_classEquals fun old new hl E v hd h => by
    generalize hq : (cs! "class_equals" : Str) = q at hl
    cases hl <;> first | (exact absurd hq (by decide)) | (cases ‹Bool› <;> exact absurd hq (by decide)) | skip
    case class_identical f g x s a b hf ha hb hg hx hs hab =>
      obtain ⟨hd1, hd2⟩ := hd
      rcases hd2 with ⟨t, r, e⟩ | hd2
      · cases e
      have hmem : callOf g [x] ∈ subs (callOf f [a, b]) := by
        rcases hab with ⟨h1, _⟩ | ⟨_, h1⟩
        · exact mem_subs_call (a := a) (by simp) (by simp [ha, hb]) (by simp) h1
        · exact mem_subs_call (a := b) (by simp) (by simp [ha, hb]) (by simp) h1
      exact value_class_identical (ownHead_fn hf hd1) ha hb (ownHead_fn hg (own_sub hd1 hmem)) hx hs hab (hd2 _ hmem) h
    case class_equals g x s l r o hg hx hs hlr ho =>
      have hmem : callOf g [x] ∈ subs (.bin l .none o r) := by
        rcases hlr with ⟨h1, _⟩ | ⟨_, h1⟩ <;> rw [h1] <;> simp [subs]
      have hhead := ownHead_fn hg (own_sub hd.1 hmem)
      rcases hd.2 with ⟨t, r', e⟩ | hd2
      · cases e
        rcases hlr with ⟨h1, _⟩ | ⟨rfl, rfl⟩
        · cases h1
        · exact value_class_in hhead hx hs h
      · exact value_class_equals hhead hx hs hlr ho (hd2 _ hmem) h

theorem keeps_coalesce : KeepsValue coalesce tightSides (fun _ e => own 2 e) :=
  keeps_of_law law_coalesce fun old new hl E v hd h => by
    generalize hq : (cs! "coalesce" : Str) = q at hl
    cases hl <;> first | (exact absurd hq (by decide)) | (cases ‹Bool› <;> exact absurd hq (by decide)) | skip
    case coalesce f a x y t e hf ha hva ht he => exact value_coalesce (ownHead_fn hf (own_sub (x := callOf f [a]) hd (by simp [subs]))) ha hva ht he h
    case coalesce_not f a x y t e hf ha hva ht he => exact value_coalesce_not (ownHead_fn hf (own_sub (x := callOf f [a]) (own_sub (x := .un .none .bang (callOf f [a])) hd (by simp [subs])) (by simp [subs]))) ha hva ht he h

theorem keeps_comparison_negation : KeepsValue comparisonNegation always (fun _ _ => True) :=
  keeps_of_law law_comparisonNegation fun old new hl E v hd h => by
    generalize hq : (cs! "comparison_negation" : Str) = q at hl
    cases hl <;> first | (exact absurd hq (by decide)) | (cases ‹Bool› <;> exact absurd hq (by decide)) | skip
    case comparison_negation ho => exact value_comparison_negation ho h

theorem keeps_equals_na : KeepsValue equalsNa always inNA :=
  keeps_of_law law_equalsNa fun old new hl E v hd h => by
    generalize hq : (cs! "equals_na" : Str) = q at hl
    cases hl <;> first | (exact absurd hq (by decide)) | (cases ‹Bool› <;> exact absurd hq (by decide)) | skip
    case equals_na l r x s o hlr hs ho =>
      obtain ⟨⟨l', t, e⟩, hd2, hd3⟩ := hd
      cases e
      rcases hlr with ⟨rfl, rfl⟩ | ⟨_, _, hno⟩
      · exact value_equals_na_in ⟨t, rfl⟩ (hd2 _ (by simp [subs])) (hd3 _ (by simp [subs])) h
      · exact absurd rfl hno

theorem keeps_fixed_regex : KeepsValue fixedRegex noOptions (fun E e => callTo [cs! "grepl", cs! "grep"] e ∧ plainRegex E) :=
  keeps_of_law law_fixedRegex fun old new hl E v hd h => by
    generalize hq : (cs! "fixed_regex" : Str) = q at hl
    cases hl <;> first | (exact absurd hq (by decide)) | (cases ‹Bool› <;> exact absurd hq (by decide)) | skip
    case fixed_regex name params f as s hf hname hl ho hp hs ha =>
      obtain ⟨⟨t, ht, hh⟩, hre⟩ := hd
      cases headName_fn hf hh
      simp only [List.mem_cons, List.not_mem_nil, or_false] at ht
      have hparams : params = [cs! "pattern", cs! "x"] := by
        rcases hname with ⟨_, h1⟩ | ⟨h1, _⟩
        · exact h1
        · rcases ht with rfl | rfl <;> exact absurd h1 (by decide)
      subst hparams
      rcases ht with rfl | rfl
      · exact value_fixed_regex (Or.inl ⟨rfl, rfl⟩) hh (fun a ha' => (ho a ha').1) hp hs ha hre h
      · exact value_fixed_regex (Or.inr ⟨rfl, rfl⟩) hh (fun a ha' => (ho a ha').1) hp hs ha hre h

/-- The value of the only argument. -/
theorem rawArgs_sub {E : Env} {f : Node} {as : List Node} {n : Option Str} {x : Value} (h : rawArgs E as = [(n, .val x)]) : ∃ e ∈ subs (callOf f as), eval E e = .val x := by
  cases n with
  | some s =>
    obtain ⟨g, k, g2, e, h1, h2⟩ := rawArgs_named h
    refine ⟨e, ?_, h2.symm⟩
    obtain ⟨_, hne, _, _⟩ := both_val h2.symm
    have : valueOf (.named g k s g2 e) = some e := by cases e <;> first | rfl | exact absurd rfl hne
    simp [subs, callOf, h1, items, argList, this]
  | none =>
    have h1 : eval E (mkArgs as) = .val x := rawArgs_one_inv (x := mkArgs as) h
    obtain ⟨_, hne, _, hv⟩ := both_val h1
    refine ⟨mkArgs as, ?_, h1⟩
    have hal : argList (mkArgs as) = [mkArgs as] := by
      generalize mkArgs as = m at *
      cases m <;> first | rfl | cases hv
    simp [subs, callOf, items, hne, hal, hv]

theorem keeps_is_numeric : KeepsValue isNumeric always (fun E e => own 1 e ∧ noFactors E e) :=
  keeps_of_law law_isNumeric fun old new hl E v hd h => by
    generalize hq : (cs! "is_numeric" : Str) = q at hl
    cases hl <;> first | (exact absurd hq (by decide)) | (cases ‹Bool› <;> exact absurd hq (by decide)) | skip
    case is_numeric f g as hfg =>
      have m1 : callOf f as ∈ subs (.bin (callOf f as) .none .or2 (callOf g as)) := by simp [subs]
      have m2 : callOf g as ∈ subs (.bin (callOf f as) .none .or2 (callOf g as)) := by simp [subs]
      have hx : ∀ n x, rawArgs E as = [(n, .val x)] → (∀ ls c, x ≠ .factor ls c) := by
        intro n x hr ls c e
        obtain ⟨y, hy, hv⟩ := rawArgs_sub (f := f) hr
        exact hd.2 _ m1 y hy ls c (by rw [hv, e])
      rcases hfg with ⟨h1, h2⟩ | ⟨h1, h2⟩
      · exact value_is_numeric (Or.inl ⟨rfl, rfl⟩) (ownHead_text h1 (own_sub hd.1 m1)) (ownHead_text h2 (own_sub hd.1 m2)) hx h
      · exact value_is_numeric (Or.inr ⟨rfl, rfl⟩) (ownHead_text h1 (own_sub hd.1 m1)) (ownHead_text h2 (own_sub hd.1 m2)) hx h

theorem keeps_length_levels : KeepsValue lengthLevels onlyNested (fun _ e => own 1 e) :=
  keeps_of_law law_lengthLevels fun old new hl E v hd h => by
    generalize hq : (cs! "length_levels" : Str) = q at hl
    cases hl <;> first | (exact absurd hq (by decide)) | (cases ‹Bool› <;> exact absurd hq (by decide)) | skip
    case length_levels hf hg => exact value_length_levels (ownHead_fn hf hd) (ownHead_fn hg (own_sub hd arg_mem)) h

theorem keeps_lengths : KeepsValue lengths onlyFun listApplied :=
  keeps_of_law law_lengths fun old new hl E v hd h => by
    generalize hq : (cs! "lengths" : Str) = q at hl
    cases hl <;> first | (exact absurd hq (by decide)) | (cases ‹Bool› <;> exact absurd hq (by decide)) | skip
    case lengths f as x len hf hl ha h2 hlen h1 =>
      obtain ⟨⟨t, _, hh⟩, hx⟩ := hd
      cases headName_fn hf hh
      exact value_lengths hh hl ha h2 h1 hx h
    case lengths_vapply f as x len hf hl h2 hlen h1 ha =>
      obtain ⟨⟨t, _, hh⟩, hx⟩ := hd
      cases headName_fn hf hh
      exact value_lengths_vapply hh hl ha h2 h1 hx h
    case lengths_map f x len hf _ _ _ =>
      obtain ⟨⟨t, ht, hh⟩, _⟩ := hd
      simp only [List.mem_cons, List.not_mem_nil, or_false] at ht
      rcases hf with hf | hf <;> cases headName_fn hf hh <;> rcases ht with ht | ht <;> exact absurd ht (by decide)

theorem keeps_numeric_leading_zero : KeepsValue numericLeadingZero always (fun _ e => ∃ s, e = .atom .none .double s) :=
  keeps_of_law law_numericLeadingZero fun old new hl E v hd h => by
    generalize hq : (cs! "numeric_leading_zero" : Str) = q at hl
    cases hl <;> first | (exact absurd hq (by decide)) | (cases ‹Bool› <;> exact absurd hq (by decide)) | skip
    case numeric_leading_zero hk =>
      obtain ⟨t, e⟩ := hd
      cases e
      exact value_numeric_leading_zero h

theorem keeps_outer_negation : KeepsValue outerNegation onlyNegation (fun _ e => own 0 e) :=
  keeps_of_law law_outerNegation fun old new hl E v hd h => by
    generalize hq : (cs! "outer_negation" : Str) = q at hl
    cases hl <;> first | (exact absurd hq (by decide)) | (cases ‹Bool› <;> exact absurd hq (by decide)) | skip
    case outer_negation_any hf => exact value_outer_negation (Or.inl ⟨rfl, rfl⟩) (ownHead_text hf hd) h
    case outer_negation_all hf => exact value_outer_negation (Or.inr ⟨rfl, rfl⟩) (ownHead_text hf hd) h

theorem keeps_redundant_equals : KeepsValue redundantEquals always logicalParts :=
  keeps_of_law law_redundantEquals fun old new hl E v hd h => by
    generalize hq : (cs! "redundant_equals" : Str) = q at hl
    cases hl <;> first | (exact absurd hq (by decide)) | (cases ‹Bool› <;> exact absurd hq (by decide)) | skip
    case redundant_equals l r x c o b hlr hc ho =>
      have hxv : ∃ y, eval E x = .val y := by
        have hb : ∀ w, binV E w o (eval E l) (eval E r) = (eval E l).bind fun a => (eval E r).bind fun b => compareV E o a b := by
          intro w; rcases ho with rfl | rfl <;> rfl
        have h' := h
        rw [eval_bin, hb] at h'
        obtain ⟨p, e1, h2⟩ := bind_val h'
        obtain ⟨q, e2, _⟩ := bind_val h2
        rcases hlr with ⟨rfl, rfl⟩ | ⟨rfl, rfl⟩
        · exact ⟨p, e1⟩
        · exact ⟨q, e2⟩
      obtain ⟨y, hy⟩ := hxv
      obtain ⟨w, rfl⟩ := hd x (by rcases hlr with ⟨rfl, rfl⟩ | ⟨rfl, rfl⟩ <;> simp [subs]) y hy
      exact value_redundant_equals hlr hc ho hy h

theorem keeps_redundant_ifelse : KeepsValue redundantIfelse always (fun E e => callTo [cs! "ifelse"] e ∧ logicalParts E e) :=
  keeps_of_law law_redundantIfelse fun old new hl E v hd h => by
    generalize hq : (cs! "redundant_ifelse" : Str) = q at hl
    cases hl <;> first | (exact absurd hq (by decide)) | (cases ‹Bool› <;> exact absurd hq (by decide)) | skip
    case redundant_ifelse name f as p1 p2 p3 c t e b hf hps hl ha h1 h2 h3 ht he =>
      obtain ⟨⟨t', ht', hh⟩, hlog⟩ := hd
      cases headName_fn hf hh
      simp only [List.mem_cons, List.not_mem_nil, or_false] at ht'
      subst ht'
      cases hps
      refine value_redundant_ifelse hh hl ha h1 h2 h3 ht he (Or.inr ?_) h
      have h' := h
      rw [eval_callOf hh, rawArgs_args ha (matchArg_hole h1)] at h'
      replace h' : withParams [cs! "test", cs! "yes", cs! "no"] ifelseV (evalArgs E as) = .val v := h'
      rw [withParams3 rfl hl h1 h2 h3] at h'
      obtain ⟨y, hy, _⟩ := bind_val h'
      obtain ⟨a, hm, hv⟩ := matchArg_mem h1
      obtain ⟨w, rfl⟩ := hlog c (mem_subs_call (matchArg_hole h1) ha hm hv) y hy
      exact ⟨w, hy⟩

theorem keeps_sample_int : KeepsValue sampleInt firstPlain (fun E e => own 0 e ∧ drawn E e) :=
  keeps_of_law law_sampleInt fun old new hl E v hd h => by
    generalize hq : (cs! "sample_int" : Str) = q at hl
    cases hl <;> first | (exact absurd hq (by decide)) | (cases ‹Bool› <;> exact absurd hq (by decide)) | skip
    case sample_int f one n as hf h1 hne ha =>
      obtain ⟨hd0, hd1, hd2, hd3⟩ := hd
      have hargs : ∀ a ∈ Node.bin one .none .colon n :: as, isArg a = true := by
        intro a hm
        rcases List.mem_cons.mp hm with rfl | hm
        · rfl
        · exact ha a hm
      refine value_sample_int (ownHead_fn hf hd0) h1 ha ?_ (hd2 one .none n (mem_subs_call (a := .bin one .none .colon n) (by simp) hargs (by simp) rfl)) hd3 h
      intro a hm
      have := hd1 a (by simp only [argsOf, callOf]; rw [items_mkArgs (by simp) hargs]; exact List.mem_cons_of_mem _ hm)
      have e : nameOf a = argName a := by cases a <;> rfl
      rw [e]; exact this

theorem keeps_seq : KeepsValue seq always (fun E e => own 1 e ∧ fromOne E e) :=
  keeps_of_law law_seq fun old new hl E v hd h => by
    generalize hq : (cs! "seq" : Str) = q at hl
    cases hl <;> first | (exact absurd hq (by decide)) | (cases ‹Bool› <;> exact absurd hq (by decide)) | skip
    case seq_length one g as h1 hg =>
      have m : callOf g as ∈ subs (.bin one .none .colon (callOf g as)) := by simp [subs]
      exact value_seq_length h1 (ownHead_fn hg (own_sub hd.1 m)) (hd.2 _ m).1 (hd.2 _ m).2 h
    case seq_len one name g as h1 hg hname =>
      have m : callOf g as ∈ subs (.bin one .none .colon (callOf g as)) := by simp [subs]
      exact value_seq_len h1 (ownHead_fn hg (own_sub hd.1 m)) (hd.2 _ m).2 h

theorem keeps_seq2 : KeepsValue seq2 always (fun E e => own 1 e ∧ fromOne E e) :=
  keeps_of_law law_seq2 fun old new hl E v hd h => by
    generalize hq : (cs! "seq2" : Str) = q at hl
    cases hl <;> first | (exact absurd hq (by decide)) | (cases ‹Bool› <;> exact absurd hq (by decide)) | skip
    case seq2_length f g as hf hg => exact value_seq2_length (ownHead_fn hf hd.1) (ownHead_fn hg (own_sub hd.1 arg_mem)) (hd.2 _ arg_mem).1 (hd.2 _ arg_mem).2 h
    case seq2_len name f g as hf hg hname => exact value_seq2_len (ownHead_fn hf hd.1) (ownHead_fn hg (own_sub hd.1 arg_mem)) (hd.2 _ arg_mem).2 h

theorem keeps_sort : KeepsValue sortRule sortOptions (fun E e => own 1 e ∧ noneMissing E e) :=
  keeps_of_law law_sortRule fun old new hl E v hd h => by
    generalize hq : (cs! "sort" : Str) = q at hl
    cases hl <;> first | (exact absurd hq (by decide)) | (cases ‹Bool› <;> exact absurd hq (by decide)) | skip
    case sort x g as opts hg ha hx ho =>
      have m1 : x ∈ subs (.call x .none .brk (callOf g as) .none) := by simp [subs]
      have m2 : callOf g as ∈ subs (.call x .none .brk (callOf g as) .none) := by simp [subs, callOf, items, argList, valueOf]
      exact value_sort (ownHead_fn hg (own_sub hd.1 m2)) ha hx ho (hd.2 x m1) h

theorem substr_head {f x start stop : Node} {n : Nat} (hf : Fn (cs! "substr") f ∨ Fn (cs! "substring") f) (ho : own n (callOf f [x, start, stop])) (hs : ¬ callTo [cs! "substring"] (callOf f [x, start, stop])) :
    headName f = some (cs! "substr") := by
  rcases hf with hf | hf
  · exact ownHead_fn hf ho
  · exact absurd ⟨_, by simp, ownHead_fn hf ho⟩ hs

theorem keeps_string_boundary : KeepsValue stringBoundary boundaryPlaces (fun E e => own 4 e ∧ plainStrings E e) :=
  keeps_of_law law_stringBoundary fun old new hl E v hd h => by
    generalize hq : (cs! "string_boundary" : Str) = q at hl
    cases hl <;> first | (exact absurd hq (by decide)) | (cases ‹Bool› <;> exact absurd hq (by decide)) | skip
    case string_start l r f x one stop s o hf hx hs hlr ho =>
      have m : callOf f [x, one, stop] ∈ subs (.bin l .none o r) := by rcases hlr with ⟨rfl, _⟩ | ⟨_, rfl⟩ <;> simp [subs]
      have hxa := (isArg_valueOf hx).1
      obtain ⟨q, _, rfl⟩ := id hs.1
      obtain ⟨_, body, hs1, hs2, k, hs3, _⟩ := id hs
      have mx : x ∈ subs (callOf f [x, .atom .none q.1 q.2, stop]) := mem_subs_call (a := x) (by simp) (by intro y hy; simp only [List.mem_cons, List.not_mem_nil, or_false] at hy; rcases hy with rfl | rfl | rfl <;> first | exact hxa | rfl | (rw [hs3]; rfl)) (by simp) hx
      exact value_string_start (substr_head hf (own_sub hd.1 m) (hd.2.2 _ m).1) hx hs hlr ho ((hd.2.2 _ m).2 x mx) h
    case string_end l r f x start stop s o hf hx hs hlr ho =>
      obtain ⟨g, g', g'', k, hg, hg', hg'', hstop, hstart⟩ := hs
      have m : callOf f [x, start, stop] ∈ subs (.bin l .none o r) := by rcases hlr with ⟨rfl, _⟩ | ⟨_, rfl⟩ <;> simp [subs]
      have hxa := (isArg_valueOf hx).1
      have hargs : ∀ y ∈ [x, start, stop], isArg y = true := by
        intro y hy; simp only [List.mem_cons, List.not_mem_nil, or_false] at hy
        rcases hy with rfl | rfl | rfl
        · exact hxa
        · rw [hstart]; rfl
        · rw [hstop]; rfl
      have mx : x ∈ subs (callOf f [x, start, stop]) := mem_subs_call (a := x) (by simp) hargs (by simp) hx
      have m1 : start ∈ subs (callOf f [x, start, stop]) := mem_subs_call (a := start) (by simp) hargs (by simp) (by rw [hstart]; rfl)
      have m2 : stop ∈ subs (callOf f [x, start, stop]) := mem_subs_call (a := stop) (by simp) hargs (by simp) (by rw [hstop]; rfl)
      have o1 := own_sub hd.1 m
      have o2 := own_sub o1 m1
      have o3 := own_sub o1 m2
      rw [hstart] at o2
      rw [hstop] at o3
      have o4 := own_sub (x := .bin (callOf g' [x]) .none .minus (callOf g'' [s])) o2 (by simp [subs])
      have o5 := own_sub (x := callOf g' [x]) o4 (by simp [subs])
      have o6 := own_sub (x := callOf g'' [s]) o4 (by simp [subs])
      obtain ⟨body, hbody, hb⟩ := hd.2.1
      have hs' : s = .atom .none .str (['"'] ++ body ++ ['"']) := by
        rcases hlr with ⟨rfl, rfl⟩ | ⟨rfl, rfl⟩ <;> simp only [subs, List.mem_cons, List.not_mem_nil, or_false, callOf, reduceCtorEq, false_or] at hbody <;> exact hbody.symm
      exact value_string_end hs' hb (substr_head hf o1 (hd.2.2 _ m).1) hx (ownHead_fn hg o3) (ownHead_fn hg' o5) (ownHead_fn hg'' o6) hstop hstart hlr ho ((hd.2.2 _ m).2 x mx) h

theorem keeps_true_false_symbol : KeepsValue trueFalseSymbol always (fun E _ => ownTF E) :=
  keeps_of_law law_trueFalseSymbol fun old new hl E v hd h => by
    generalize hq : (cs! "true_false_symbol" : Str) = q at hl
    cases hl <;> first | (exact absurd hq (by decide)) | (cases ‹Bool› <;> exact absurd hq (by decide)) | skip
    case true_symbol =>
      have e : eval E (sym (cs! "T")) = E.other (sym (cs! "T")) := by rfl
      rw [e, hd.1] at h
      exact h
    case false_symbol =>
      have e : eval E (sym (cs! "F")) = E.other (sym (cs! "F")) := by rfl
      rw [e, hd.2] at h
      exact h

theorem keeps_unnecessary_nesting : KeepsValue unnecessaryNesting always noStringConditions :=
  keeps_of_law law_unnecessaryNesting fun old new hl E v hd h => by
    generalize hq : (cs! "unnecessary_nesting" : Str) = q at hl
    cases hl <;> first | (exact absurd hq (by decide)) | (cases ‹Bool› <;> exact absurd hq (by decide)) | skip
    case unnecessary_nesting => exact value_unnecessary_nesting hd.1 hd.2 h

theorem keeps_which_grepl : KeepsValue whichGrepl onlyNested (fun _ e => own 1 e) :=
  keeps_of_law law_whichGrepl fun old new hl E v hd h => by
    generalize hq : (cs! "which_grepl" : Str) = q at hl
    cases hl <;> first | (exact absurd hq (by decide)) | (cases ‹Bool› <;> exact absurd hq (by decide)) | skip
    case which_grepl hf hg => exact value_which_grepl (ownHead_fn hf hd) (ownHead_fn hg (own_sub hd arg_mem)) h

/-- For every program, every place in it, and every one of these rules: if the rule proposes a fix there, there are no comments inside the replaced code, it is not the right side of a pipe, and
the conditions hold, then whatever the variables and functions that are not described are: where the code that was there computes a value, the code that R reads in its place in the fixed program
computes the same value. -/
theorem C79_safe_fixes_keep_values_partial : ∀ q ∈ valueRules, KeepsValue q.2.1 q.2.2.1 q.2.2.2 := by
  simp only [valueRules, List.forall_mem_cons, List.not_mem_nil, false_imp_iff, implies_true, and_true]
  exact ⟨keeps_any_duplicated, keeps_any_is_na, keeps_any_is_na_in, keeps_class_identical, keeps_class_equals, keeps_coalesce, keeps_comparison_negation, keeps_equals_na, keeps_fixed_regex,
    keeps_is_numeric, keeps_length_levels, keeps_lengths, keeps_numeric_leading_zero, keeps_outer_negation, keeps_redundant_equals, keeps_redundant_ifelse, keeps_sample_int, keeps_seq, keeps_seq2,
    keeps_sort, keeps_string_boundary, keeps_true_false_symbol, keeps_unnecessary_nesting, keeps_which_grepl⟩

end Jarl
