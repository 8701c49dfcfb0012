import Verif.Props.RFoundCalls
/-!
# C63: the rules find the code they document, part 3
-/
namespace Jarl
open Spec

theorem items_ne {p : Str} {params : List Str} {as : List Node} {v : Node} (h : matchArg params as p = some v) : as ≠ [.hole] := by
  rintro rfl
  simp only [matchArg, List.find?_cons, List.find?_nil, nameOf] at h
  generalize List.findIdx? _ _ = o at h
  cases o with
  | none => simp at h
  | some i => cases i <;> simp [valueOf] at h

theorem valueOf_named (g k s g2 e) : valueOf (.named g k s g2 e) ≠ some (.named g k s g2 e) := by
  have : valueOf (.named g k s g2 e) = none ∨ valueOf (.named g k s g2 e) = some e := by
    cases e <;> first | exact Or.inl rfl | exact Or.inr rfl
  rcases this with h | h <;> rw [h]
  · simp
  · intro h
    have := congrArg sizeOf (Option.some.inj h)
    simp at this

theorem valueBy_inv {as : List Node} {n : Str} {pos : Nat} {v : Node} (h : valueBy as n pos = some v) : ∃ a, argBy as n pos = some a ∧ argValue a = some v := by
  unfold valueBy at h
  cases ha : argBy as n pos with
  | none => rw [ha] at h; cases h
  | some a => rw [ha] at h; exact ⟨a, rfl, h⟩

theorem lengths_hits {z : Zip} {f0 args len : Node} (h1 : asCall z.e = some (f0, args)) (hf : fnName f0 ∈ [cs! "sapply", cs! "vapply", cs! "map_dbl", cs! "map_int"])
    (hl : valueBy (items args) (cs! "FUN") 1 = some len) (ht : textIs (cs! "length") len = true) (hx : (unnamedArgs (items args))[0]?.isSome = true) : Hits lengths z := by
  obtain ⟨a, ha, hv⟩ := valueBy_inv hl
  have : (argBy (items args) (cs! "x") 0).isSome = true := by
    unfold argBy
    split
    · rfl
    · exact hx
  obtain ⟨x, hx⟩ := Option.isSome_iff_exists.mp this
  unfold Hits lengths
  simp only [h1, Option.bind_eq_bind, Option.bind_some, hf, guard_true, ha, hv, ht, hx]
  rfl

theorem first_some {params : List Str} {bs : List Node} {v : Node} {p : Str} (h : matchArg (p :: params) (bs.map bare) p = some v) (hno : ∀ a ∈ bs, nameOf a ≠ some p) :
    (unnamedArgs bs)[0]?.isSome = true := by
  obtain ⟨v0, h, _⟩ := matched_first h
  obtain ⟨a, ha, _⟩ := valueBy_inv h
  unfold argBy at ha
  rw [byName_none hno] at ha
  simp only at ha
  rw [ha]; rfl

theorem found_lengths {z f as x len params} (hp : params = [cs! "X", cs! "FUN"] ∨ params = [cs! "X", cs! "FUN", cs! "FUN.VALUE"]) (h : bare z.e = callOf f as)
    (hf : Fn (cs! "sapply") f ∨ Fn (cs! "vapply") f) (ha : ∀ a ∈ as, isArg a = true)
    (hl : matchArg params as (cs! "FUN") = some len) (ht : Text (cs! "length") len) (hx : matchArg params as (cs! "X") = some x) (hc : nobodyNamed (cs! "X") z) : Hits lengths z := by
  obtain ⟨f0, args, h1, rfl, rfl⟩ := call_items h (items_ne hx) ha
  unfold nobodyNamed at hc
  rw [argsOf_of h1] at hc
  have hm : fnName f0 ∈ [cs! "sapply", cs! "vapply", cs! "map_dbl", cs! "map_int"] := by
    rcases hf with hf | hf <;> rw [fn_bare hf] <;> simp
  obtain ⟨v0, h2, rfl⟩ := matched hl 1 (by rcases hp with rfl | rfl <;> rfl) (by rcases hp with rfl | rfl <;> simp) (by
    intro q hq ⟨a, ha, hn⟩
    have : q = cs! "X" := by rcases hp with rfl | rfl <;> simpa using hq
    subst this
    exact absurd (by rw [nameOf_eq]; exact hn) (hc a ha))
  refine lengths_hits h1 hm h2 (text_bare ht) ?_
  rcases hp with rfl | rfl <;> exact first_some hx hc

theorem found_lengths_map {z f x len} (h : bare z.e = callOf f [x, len]) (hf : Fn (cs! "map_dbl") f ∨ Fn (cs! "map_int") f) (ht : Text (cs! "length") len)
    (_hx : isArg x = true) (hv : valueOf x = some x) : Hits lengths z := by
  obtain ⟨f0, args, h1, rfl, h3⟩ := call_inv h
  obtain ⟨a0, b0, h4, rfl, rfl⟩ := two_args h3 (by obtain ⟨k, rfl, _⟩ := ht; rfl)
  have hm : fnName f0 ∈ [cs! "sapply", cs! "vapply", cs! "map_dbl", cs! "map_int"] := by
    rcases hf with hf | hf <;> rw [fn_bare hf] <;> simp
  have ha : argName a0 = none := by
    cases a0 with
    | named g k s g2 e =>
      exact absurd hv (valueOf_named _ _ _ _ _)
    | _ => rfl
  have hb : argName b0 = none ∧ argValue b0 = some b0 := by
    obtain ⟨k, h, _⟩ := ht
    cases b0 <;> simp [bare] at h <;> exact ⟨rfl, rfl⟩
  have hu : unnamedArgs (items args) = [a0, b0] := by simp [h4, unnamedArgs, ha, hb.1]
  refine lengths_hits h1 hm (len := b0) ?_ (text_bare ht) (by rw [hu]; rfl)
  unfold valueBy argBy
  rw [show argByName (items args) (cs! "FUN") = none by rw [h4]; simp [argByName, ha, hb.1], hu]
  exact hb.2

theorem found_list2df {z f as what x} (h : bare z.e = callOf f as) (hf : Fn (cs! "do.call") f) (hl : as.length = 2) (ha : ∀ a ∈ as, isArg a = true)
    (hw : matchArg [cs! "what", cs! "args"] as (cs! "what") = some what)
    (ht : Text (cs! "cbind.data.frame") what ∨ Text (cs! "\"cbind.data.frame\"") what ∨ Text (cs! "'cbind.data.frame'") what)
    (hx : matchArg [cs! "what", cs! "args"] as (cs! "args") = some x) (hc : ordered [cs! "what", cs! "args"] z) : Hits list2df z := by
  obtain ⟨f0, args, h1, rfl, rfl⟩ := call_items h (items_ne hx) ha
  unfold ordered at hc
  rw [argsOf_of h1] at hc
  obtain ⟨w0, k1, rfl⟩ := matched_first hw
  obtain ⟨x0, k2, rfl⟩ := matched_second hx (by decide) hc
  obtain ⟨a, ha, hva⟩ := valueBy_inv k1
  obtain ⟨b, hb, hvb⟩ := valueBy_inv k2
  have hl : (items args)[2]?.isNone = true := by
    have : (items args).length = 2 := by simpa using hl
    simp [this]
  have ht : (textIs (cs! "cbind.data.frame") w0 || textIs (cs! "\"cbind.data.frame\"") w0 || textIs (cs! "'cbind.data.frame'") w0) = true := by
    rcases ht with h | h | h <;> simp [text_bare h]
  unfold Hits list2df
  simp only [h1, Option.bind_eq_bind, Option.bind_some, fn_bare hf, guard_true, ha, hb, hl, hva, hvb, ht]
  rfl

theorem found_matrixApply {z f as x m mt fu ft new} (h : bare z.e = callOf f as) (hf : Fn (cs! "apply") f) (ha : ∀ a ∈ as, isArg a = true)
    (hl : (as.filter (fun a => nameOf a ≠ some (cs! "na.rm"))).length = 3) (hl1 : (as.filter (fun a => nameOf a = some (cs! "na.rm"))).length ≤ 1)
    (hx : matchArg [cs! "X", cs! "MARGIN", cs! "FUN"] as (cs! "X") = some x)
    (hm : matchArg [cs! "X", cs! "MARGIN", cs! "FUN"] as (cs! "MARGIN") = some m) (hmt : Text mt m)
    (hfu : matchArg [cs! "X", cs! "MARGIN", cs! "FUN"] as (cs! "FUN") = some fu) (hft : Text ft fu) (hn : ((ft, mt), new) ∈ marginFn)
    (hc : ordered [cs! "X", cs! "MARGIN", cs! "FUN"] z) : Hits matrixApply z := by
  obtain ⟨f0, args, h1, rfl, rfl⟩ := call_items h (items_ne hx) ha
  unfold ordered at hc
  rw [argsOf_of h1] at hc
  obtain ⟨x0, k1, rfl⟩ := matched_first hx
  obtain ⟨m0, k2, rfl⟩ := matched_second hm (by decide) hc
  obtain ⟨u0, k3, rfl⟩ := matched_third hfu (by decide) (by decide) hc
  have t1 := text_bare hmt
  have t2 := text_bare hft
  have q1 : (textIs (cs! "mean") u0 || textIs (cs! "sum") u0) = true := by
    simp [marginFn] at hn
    rcases hn with h | h | h | h | h | h | h | h <;> simp_all
  have q2 : (textIs (cs! "1") m0 || textIs (cs! "1L") m0 || textIs (cs! "2") m0 || textIs (cs! "2L") m0) = true := by
    simp [marginFn] at hn
    rcases hn with h | h | h | h | h | h | h | h <;> simp_all
  have hlen : (items args).length ≤ if (argByName (items args) (cs! "na.rm")).isSome then 4 else 3 := by
    have e1 := filter_bare (as := items args) (p := fun o => o ≠ some (cs! "na.rm"))
    have e2 := filter_bare (as := items args) (p := fun o => o = some (cs! "na.rm"))
    rw [e1, List.length_map] at hl
    rw [e2, List.length_map] at hl1
    have hsum : (items args).length = ((items args).filter (fun a => decide (argName a = some (cs! "na.rm")))).length
        + ((items args).filter (fun a => decide (argName a ≠ some (cs! "na.rm")))).length := by
      generalize items args = l
      induction l with
      | nil => rfl
      | cons a l ih =>
        simp only [List.filter_cons, List.length_cons]
        by_cases ha : argName a = some (cs! "na.rm") <;> simp [ha] <;> simp at ih <;> omega
    split
    · omega
    · next hno =>
      have : (items args).filter (fun a => decide (argName a = some (cs! "na.rm"))) = [] := by
        rw [List.filter_eq_nil_iff]
        intro a ha
        have : argByName (items args) (cs! "na.rm") = none := by simpa using hno
        exact List.find?_eq_none.mp this a ha
      rw [this] at hsum
      simp at hsum hl
      omega
  unfold Hits matrixApply
  simp only [h1, Option.bind_eq_bind, Option.bind_some, fn_bare hf, guard_true, hlen, k1, k2, k3, q1, q2]
  rfl

theorem text_of_bare {s : Str} {n : Node} (h : Text s (bare n)) : textIs s n = true := text_bare h

theorem found_systemFile {z f g as ps} (h : bare z.e = callOf f as) (hf : Fn (cs! "system.file") f) (hu : as.filter (fun a => (nameOf a).isNone) = [callOf g ps])
    (hg : Text (cs! "file.path") g) (hne : ps ≠ []) (hps : ∀ a ∈ ps, nameOf a = none ∧ a ≠ .hole ∧ isArg a = true) (ha : ∀ a ∈ as, isArg a = true) : Hits systemFile z := by
  obtain ⟨f0, args, h1, rfl, rfl⟩ := call_items h (by rintro rfl; simp [nameOf, callOf] at hu) ha
  rw [filter_bare (p := fun o => o.isNone)] at hu
  obtain ⟨a0, h2, h3⟩ := List.map_eq_singleton_iff.mp hu
  obtain ⟨g0, args2, h4, rfl, h5⟩ := call_items h3 (by rintro rfl; exact (hps .hole (by simp)).2.1 rfl) fun a ha => (hps a ha).2.2
  have hv : argValue a0 = some a0 := by cases a0 <;> simp [bare, callOf] at h3 <;> rfl
  have hu : unnamedArgs (items args) = [a0] := h2
  have hp : ∃ x, x ∈ items args2 ∧ ¬ argValue x = none := by
    cases hi : items args2 with
    | nil => rw [hi] at h5; exact absurd h5.symm hne
    | cons b bs =>
      refine ⟨b, by simp, ?_⟩
      have hm : bare b ∈ ps := by rw [← h5, hi]; simp
      obtain ⟨k1, k2, k3⟩ := hps _ hm
      rw [nameOf_bare] at k1
      cases b <;> simp_all [argName, argValue, bare]
  have hg := text_bare hg
  unfold Hits systemFile
  simp only [h1, Option.bind_eq_bind, Option.bind_some, fn_bare hf, guard_true, hu, List.filter_cons, hv, h4, hg]
  simp [hv, h4, hp, fixAt]

end Jarl
