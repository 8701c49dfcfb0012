import Verif.Props.RLawsRest
import Verif.Props.Sprintf
/-!
# C52: `expect_match` and `expect_no_match`
-/
namespace Jarl
open Spec

/-- The indices of the arguments without names. -/
def freeIdx (as : List Node) : List Nat := (List.range as.length).filter (fun i => match as[i]? with | some a => (argName a).isNone | none => false)

theorem freeIdx_aux (as : List Node) : ∀ s, ((List.range' s as.length).filter (fun i => match as[i - s]? with | some a => (argName a).isNone | none => false)).filterMap (fun i => as[i - s]?) = unnamedArgs as := by
  induction as with
  | nil => intro s; rfl
  | cons a as ih =>
    intro s
    have hshift : ∀ i ∈ List.range' (s + 1) as.length, (a :: as)[i - s]? = as[i - (s + 1)]? := by
      intro i hi
      have := List.mem_range'_1.mp hi
      rw [show i - s = (i - (s + 1)) + 1 by omega, List.getElem?_cons_succ]
    have h1 : (List.range' (s + 1) as.length).filter (fun i => match (a :: as)[i - s]? with | some a => (argName a).isNone | none => false) =
        (List.range' (s + 1) as.length).filter (fun i => match as[i - (s + 1)]? with | some a => (argName a).isNone | none => false) :=
      List.filter_congr fun i hi => by rw [hshift i hi]
    have h2 : ∀ {l : List Nat}, (∀ i ∈ l, i ∈ List.range' (s + 1) as.length) → l.filterMap (fun i => (a :: as)[i - s]?) = l.filterMap (fun i => as[i - (s + 1)]?) := by
      intro l hl
      induction l with
      | nil => rfl
      | cons i l ih' => simp only [List.filterMap_cons, hshift i (hl i (by simp)), ih' fun j hj => hl j (by simp [hj])]
    simp only [List.length_cons, List.range'_succ, List.filter_cons, Nat.sub_self, List.getElem?_cons_zero, unnamedArgs]
    split
    · next ha =>
      rw [List.filterMap_cons]
      simp only [Nat.sub_self, List.getElem?_cons_zero]
      rw [h1, h2 fun i hi => (List.mem_filter.mp hi).1, ih (s + 1)]
      rfl
    · next ha =>
      rw [h1, h2 fun i hi => (List.mem_filter.mp hi).1, ih (s + 1)]
      rfl

theorem freeIdx_map (as : List Node) : (freeIdx as).filterMap (fun i => as[i]?) = unnamedArgs as := by
  have := freeIdx_aux as 0
  simpa [freeIdx, List.range_eq_range'] using this

theorem freeIdx_get (as : List Node) (pos : Nat) {i} (h : (freeIdx as)[pos]? = some i) : (unnamedArgs as)[pos]? = as[i]? := by
  rw [← freeIdx_map]
  have hall : ∀ j ∈ freeIdx as, (as[j]?).isSome := by
    intro j hj
    have := List.mem_range.mp (List.mem_filter.mp hj).1
    simp [this]
  generalize freeIdx as = l at h hall
  induction l generalizing pos with
  | nil => simp at h
  | cons j l ih =>
    obtain ⟨b, hb⟩ := Option.isSome_iff_exists.mp (hall j (by simp))
    simp only [List.filterMap_cons, hb]
    cases pos with
    | zero => simp at h; subst h; simp [hb]
    | succ n => simp only [List.getElem?_cons_succ] at h ⊢; exact ih n h fun k hk => hall k (by simp [hk])

/-- The index of an argument by name or position. -/
def idxBy (as : List Node) (n : Str) (pos : Nat) : Option Nat :=
  match as.findIdx? (fun a => argName a = some n) with
  | some i => some i
  | none => (freeIdx as)[pos]?

theorem find_get {as : List Node} {p : Node → Bool} {i} (h : as.findIdx? p = some i) : as.find? p = as[i]? := by
  obtain ⟨hi, h1, h2⟩ := List.findIdx?_eq_some_iff_getElem.mp h
  rw [List.getElem?_eq_getElem hi]
  exact List.find?_eq_some_iff_getElem.mpr ⟨h1, i, hi, rfl, fun j hj => by simpa using h2 j hj⟩

theorem idxBy_value {as n pos i} (h : idxBy as n pos = some i) : valueBy as n pos = as[i]?.bind argValue := by
  unfold idxBy at h
  unfold valueBy argBy argByName
  cases hf : as.findIdx? (fun a => decide (argName a = some n)) with
  | some j =>
    rw [hf] at h; cases h
    have := find_get hf
    obtain ⟨hi, _⟩ := List.findIdx?_eq_some_iff_getElem.mp hf
    rw [this, List.getElem?_eq_getElem hi]
  | none =>
    rw [hf] at h
    have : as.find? (fun a => decide (argName a = some n)) = none := List.find?_eq_none.mpr fun a ha => by
      have := List.findIdx?_eq_none_iff.mp hf a ha; simpa using this
    rw [this]
    simp only at h ⊢
    rw [freeIdx_get as pos h]

theorem idxBy_cases {as n pos i} (h : idxBy as n pos = some i) :
    (∃ a, as[i]? = some a ∧ argName a = some n) ∨ ((∀ a ∈ as, argName a ≠ some n) ∧ (freeIdx as)[pos]? = some i) := by
  unfold idxBy at h
  cases hf : as.findIdx? (fun a => decide (argName a = some n)) with
  | some j =>
    rw [hf] at h; cases h
    obtain ⟨hi, h1, _⟩ := List.findIdx?_eq_some_iff_getElem.mp hf
    exact Or.inl ⟨_, List.getElem?_eq_getElem hi, by simpa using h1⟩
  | none =>
    rw [hf] at h
    exact Or.inr ⟨fun a ha => by have := List.findIdx?_eq_none_iff.mp hf a ha; simpa using this, h⟩

theorem freeIdx_name {as : List Node} {pos i : Nat} (h : (freeIdx as)[pos]? = some i) : ∃ a, as[i]? = some a ∧ argName a = none := by
  have := (List.mem_filter.mp (List.mem_of_getElem? h)).2
  revert this
  cases as[i]? with
  | none => intro h; cases h
  | some a => intro h; exact ⟨a, rfl, by simpa using h⟩

theorem names_unique {as : List Node} (h : ((namedArgs as).map argName).Nodup) {i j : Nat} {a b : Node} {n} (hi : as[i]? = some a) (hj : as[j]? = some b)
    (ha : argName a = some n) (hb : argName b = some n) : i = j := by
  induction as generalizing i j with
  | nil => simp at hi
  | cons c as ih =>
    have hmem : ∀ {k : Nat} {x : Node}, as[k]? = some x → argName x = some n → argName c = some n → False := by
      intro k x hk hx hc
      have : namedArgs (c :: as) = c :: namedArgs as := by simp [namedArgs, hc]
      rw [this] at h
      have := (List.nodup_cons.mp h).1
      exact this (List.mem_map.mpr ⟨x, List.mem_filter.mpr ⟨List.mem_of_getElem? hk, by rw [hx]; rfl⟩, by rw [hx, hc]⟩)
    have htail : ((namedArgs as).map argName).Nodup := by
      unfold namedArgs at h ⊢
      rw [List.filter_cons] at h
      split at h
      · exact (List.nodup_cons.mp h).2
      · exact h
    cases i with
    | zero =>
      cases j with
      | zero => rfl
      | succ j => simp only [List.getElem?_cons_zero, Option.some.injEq, List.getElem?_cons_succ] at hi hj; subst hi; exact absurd ha (fun h => hmem hj hb h)
    | succ i =>
      cases j with
      | zero => simp only [List.getElem?_cons_zero, Option.some.injEq, List.getElem?_cons_succ] at hi hj; subst hj; exact absurd hb (fun h => hmem hi ha h)
      | succ j =>
        simp only [List.getElem?_cons_succ] at hi hj
        exact congrArg (· + 1) (ih htail hi hj)

theorem filter_zipIdx {as : List Node} {q : Node → Bool} : ∀ k, as.filter q = ((as.zipIdx k).filter (fun x => q x.1)).map (·.1) := by
  induction as with
  | nil => intro k; rfl
  | cons a as ih =>
    intro k
    simp only [List.zipIdx_cons, List.filter_cons]
    split <;> simp [ih (k + 1)]

/-- The other arguments. -/
theorem rest_eq {as : List Node} {ip ix} (hn : ((namedArgs as).map argName).Nodup) (hp : idxBy as (cs! "pattern") 0 = some ip) (hx : idxBy as (cs! "x") 1 = some ix)
    (hr : ((as.zipIdx.filter (fun q => q.2 ≠ ip ∧ q.2 ≠ ix)).map (·.1)).all (fun a => (argName a).isSome) = true) :
    (as.zipIdx.filter (fun q => q.2 ≠ ip ∧ q.2 ≠ ix)).map (·.1) =
      as.filter (fun a => (argName a).isSome ∧ argName a ≠ some (cs! "pattern") ∧ argName a ≠ some (cs! "x")) := by
  rw [filter_zipIdx 0 (as := as)]
  congr 1
  refine List.filter_congr fun ⟨a, i⟩ hq => ?_
  have hai : as[i]? = some a := by have := List.mem_zipIdx_iff_getElem?.mp hq; simpa using this
  have hsome : i ≠ ip → i ≠ ix → (argName a).isSome = true := by
    intro h1 h2
    exact List.all_eq_true.mp hr a (List.mem_map.mpr ⟨(a, i), List.mem_filter.mpr ⟨hq, by simp [h1, h2]⟩, rfl⟩)
  have atP : i = ip → argName a = some (cs! "pattern") ∨ argName a = none := by
    rintro rfl
    rcases idxBy_cases hp with ⟨b, hb, hbn⟩ | ⟨_, hf⟩
    · rw [hai] at hb; cases hb; exact Or.inl hbn
    · obtain ⟨b, hb, hbn⟩ := freeIdx_name hf
      rw [hai] at hb; cases hb; exact Or.inr hbn
  have atX : i = ix → argName a = some (cs! "x") ∨ argName a = none := by
    rintro rfl
    rcases idxBy_cases hx with ⟨b, hb, hbn⟩ | ⟨_, hf⟩
    · rw [hai] at hb; cases hb; exact Or.inl hbn
    · obtain ⟨b, hb, hbn⟩ := freeIdx_name hf
      rw [hai] at hb; cases hb; exact Or.inr hbn
  have notP : argName a = some (cs! "pattern") → i = ip := by
    intro ha
    rcases idxBy_cases hp with ⟨b, hb, hbn⟩ | ⟨h, _⟩
    · exact names_unique hn hai hb ha hbn
    · exact absurd ha (h a (List.mem_of_getElem? hai))
  have notX : argName a = some (cs! "x") → i = ix := by
    intro ha
    rcases idxBy_cases hx with ⟨b, hb, hbn⟩ | ⟨h, _⟩
    · exact names_unique hn hai hb ha hbn
    · exact absurd ha (h a (List.mem_of_getElem? hai))
  simp only [Bool.decide_and, decide_not]
  by_cases h1 : i = ip
  · rcases atP h1 with h | h <;> simp [h1, h]
  · by_cases h2 : i = ix
    · rcases atX h2 with h | h <;> simp [h2, h]
    · have h3 := hsome h1 h2
      have h4 : argName a ≠ some (cs! "pattern") := fun h => h1 (notP h)
      have h5 : argName a ≠ some (cs! "x") := fun h => h2 (notX h)
      simp [h1, h2, h3, h4, h5]

theorem freeIdx_nodup (as) : (freeIdx as).Nodup := List.Nodup.sublist List.filter_sublist List.nodup_range

theorem idx_ne {as ip ix} (hp : idxBy as (cs! "pattern") 0 = some ip) (hx : idxBy as (cs! "x") 1 = some ix) : ip ≠ ix := by
  rintro rfl
  rcases idxBy_cases hp with ⟨a, ha, han⟩ | ⟨_, hf⟩ <;> rcases idxBy_cases hx with ⟨b, hb, hbn⟩ | ⟨_, hg⟩
  · rw [ha] at hb; cases hb; rw [han] at hbn; cases hbn
  · obtain ⟨b, hb, hbn⟩ := freeIdx_name hg
    rw [ha] at hb; cases hb; rw [han] at hbn; cases hbn
  · obtain ⟨a, ha, han⟩ := freeIdx_name hf
    rw [ha] at hb; cases hb; rw [han] at hbn; cases hbn
  · obtain ⟨h0, e0⟩ := List.getElem?_eq_some_iff.mp hf
    obtain ⟨h1, e1⟩ := List.getElem?_eq_some_iff.mp hg
    have := (List.getElem_inj (freeIdx_nodup as)).mp (e0.trans e1.symm)
    cases this

theorem idx_lt {as n pos i} (h : idxBy as n pos = some i) : i < as.length := by
  rcases idxBy_cases h with ⟨a, ha, _⟩ | ⟨_, hf⟩
  · exact (List.getElem?_eq_some_iff.mp ha).1
  · obtain ⟨a, ha, _⟩ := freeIdx_name hf
    exact (List.getElem?_eq_some_iff.mp ha).1

theorem rest_length {as : List Node} {ip ix} (hne : ip ≠ ix) (h1 : ip < as.length) (h2 : ix < as.length) :
    ((as.zipIdx.filter (fun q => q.2 ≠ ip ∧ q.2 ≠ ix)).map (·.1)).length + 2 = as.length := by
  have hs := filter_not_length as.zipIdx (fun q => decide (q.2 ≠ ip ∧ q.2 ≠ ix))
  have hz : (as.zipIdx.filter (fun q => !decide (q.2 ≠ ip ∧ q.2 ≠ ix))).length = 2 := by
    have hnd : ((as.zipIdx.filter (fun q => !decide (q.2 ≠ ip ∧ q.2 ≠ ix))).map (·.2)).Nodup := by
      refine List.Nodup.sublist (List.Sublist.map _ List.filter_sublist) ?_
      rw [show as.zipIdx.map (·.2) = List.range' 0 as.length from List.zipIdx_map_snd ..]
      exact List.nodup_range'
    have hm : ∀ i, i ∈ (as.zipIdx.filter (fun q => !decide (q.2 ≠ ip ∧ q.2 ≠ ix))).map (·.2) ↔ i = ip ∨ i = ix := by
      intro i
      simp only [List.mem_map, List.mem_filter, Prod.exists, Bool.not_eq_true', decide_eq_false_iff_not]
      constructor
      · rintro ⟨a, j, ⟨_, h⟩, rfl⟩
        by_cases h1 : j = ip
        · exact Or.inl h1
        · by_cases h2 : j = ix
          · exact Or.inr h2
          · exact absurd ⟨h1, h2⟩ h
      · rintro (rfl | rfl)
        · exact ⟨as[i], i, ⟨List.mem_zipIdx_iff_getElem?.mpr (by simp [h1]), fun h => h.1 rfl⟩, rfl⟩
        · exact ⟨as[i], i, ⟨List.mem_zipIdx_iff_getElem?.mpr (by simp [h2]), fun h => h.2 rfl⟩, rfl⟩
    have l1 := nodup_length (l := [ip, ix]) hnd fun i hi => by simpa using (hm i).mp hi
    have l2 := nodup_length (qs := [ip, ix]) (l := (as.zipIdx.filter (fun q => !decide (q.2 ≠ ip ∧ q.2 ≠ ix))).map (·.2)) (by simp [hne])
      fun i hi => (hm i).mpr (by simpa using hi)
    simp only [List.length_map, List.length_cons, List.length_nil] at l1 l2
    omega
  rw [hz, List.length_zipIdx] at hs
  rw [List.length_map]; exact hs

theorem law_expectMatch (b : Bool) : Lawful (if b then cs! "expect_match" else cs! "expect_no_match")
    (expectMatch · (if b then cs! "expect_true" else cs! "expect_false") (if b then cs! "expect_match" else cs! "expect_no_match")) innerNames := by
  intro ts p z ed e' hp hz h _ _ hc hpl
  have hw := at_place hp hz
  unrule expectMatch h
  obtain ⟨f, args, h1, _, hf, _, _, obj, hobj, g, gargs, h2, _, hg, ip, hip, ix, hix, x, hx, q, hq, _, hl, _, hr, rfl⟩ := h
  have hip : idxBy (items gargs) (cs! "pattern") 0 = some ip := hip
  have hix : idxBy (items gargs) (cs! "x") 1 = some ix := hix
  have hi := asCall_items hw h1
  have hf := guard_some hf
  have hl := guard_some hl
  have hl : (items args).length = 1 := by have := List.length_pos_iff.mpr (value_nonempty hobj); omega
  have hoo := valueBy_ok hi hobj
  have hS := single_law hw h1 hl hobj
  have hii := asCall_items hoo.wf h2
  rw [asCall_core hoo.wf h2] at hS
  obtain ⟨ob, hob, hobv⟩ := valueBy_from hobj
  simp only [innerNames, fixAt, argsOf_call h1] at hc
  have hnames := hc ob hob obj hobv
  rw [argsOf_call h2] at hnames
  have hr := guard_some hr
  have hrest := rest_eq hnames hip hix hr
  have hx : valueBy (items gargs) (cs! "x") 1 = some x := by
    rw [idxBy_value hix]; obtain ⟨a, ha, hv⟩ := hx; rw [ha]; exact hv
  have hq : valueBy (items gargs) (cs! "pattern") 0 = some q := by
    rw [idxBy_value hip]; obtain ⟨a, ha, hv⟩ := hq; rw [ha]; exact hv
  have hlen := rest_length (idx_ne hip hix) (idx_lt hip) (idx_lt hix)
  have hxm : matchArg [cs! "pattern", cs! "x"] ((items gargs).map core) (cs! "x") = some (core x) := by
    refine match_value hii rfl (by decide) ?_ hx
    rcases idxBy_cases hix with ⟨a, ha, han⟩ | ⟨_, hfx⟩
    · exact Or.inl ⟨a, List.mem_of_getElem? ha, han⟩
    · right
      intro y hy a ha
      simp only [List.take_succ_cons, List.take_zero, List.mem_singleton] at hy
      subst hy
      rcases idxBy_cases hip with ⟨c, hc', hcn⟩ | ⟨h, _⟩
      · -- then the first free argument is neither of the two
        exfalso
        obtain ⟨hlt, _⟩ := List.getElem?_eq_some_iff.mp hfx
        have h0 : (freeIdx (items gargs))[0]? = some ((freeIdx (items gargs))[0]'(by omega)) := List.getElem?_eq_getElem _
        obtain ⟨d, hd, hdn⟩ := freeIdx_name h0
        generalize (freeIdx (items gargs))[0]'(by omega) = i0 at h0 hd
        have n1 : i0 ≠ ip := by rintro rfl; rw [hc'] at hd; cases hd; rw [hcn] at hdn; cases hdn
        have n2 : i0 ≠ ix := by
          rintro rfl
          obtain ⟨k0, e0⟩ := List.getElem?_eq_some_iff.mp h0
          obtain ⟨k1, e1⟩ := List.getElem?_eq_some_iff.mp hfx
          have := (List.getElem_inj (freeIdx_nodup (items gargs))).mp (e0.trans e1.symm)
          cases this
        have := List.all_eq_true.mp hr d (List.mem_map.mpr ⟨(d, i0), List.mem_filter.mpr ⟨List.mem_zipIdx_iff_getElem?.mpr (by simpa using hd), by simp [n1, n2]⟩, rfl⟩)
        rw [hdn] at this; cases this
      · exact h a ha
  have hnew : ArgsCore (joinComma (trimmed x :: trimmed q :: (((items gargs).zipIdx.filter (fun q => q.2 ≠ ip ∧ q.2 ≠ ix)).map (·.1)).map trimmed))
      (core x :: core q :: (((items gargs).zipIdx.filter (fun q => q.2 ≠ ip ∧ q.2 ≠ ix)).map (·.1)).map core) := by
    have := ArgsCore.join (as := x :: q :: ((items gargs).zipIdx.filter (fun q => q.2 ≠ ip ∧ q.2 ≠ ix)).map (·.1)) (fun b hb => by
      simp only [List.mem_cons] at hb
      rcases hb with rfl | rfl | hb
      · exact (valueBy_ok hii hx).argOk
      · exact (valueBy_ok hii hq).argOk
      · rw [hrest] at hb; exact hii b (List.mem_filter.mp hb).1) (by simp)
    exact this
  have hplain : Plain (if b then cs! "expect_true" else cs! "expect_false") := by cases b <;> decide
  rw [show core (fixAt z _).z.e = _ from asCall_core hw h1, (sibling_text hf hplain hnew).placed hpl]
  have hrc : (((items gargs).zipIdx.filter (fun q => q.2 ≠ ip ∧ q.2 ≠ ix)).map (·.1)).map core =
      ((items gargs).map core).filter (fun a => (nameOf a).isSome ∧ nameOf a ≠ some (cs! "pattern") ∧ nameOf a ≠ some (cs! "x")) := by
    rw [hrest]
    exact (filter_core (p := fun o => decide (o.isSome ∧ o ≠ some (cs! "pattern") ∧ o ≠ some (cs! "x"))) hii).symm
  refine .expect_match (fn_core hf hplain) hS (fn_core (guard_some hg) (by decide)) (match_value hii rfl (by simp) (Or.inr (by simp)) hq) hxm hrc ?_ (isArg_map hii)
  simpa using hlen

theorem law_sprintfRule : Lawful (cs! "sprintf") sprintfRule plainFormat := by
  intro ts p z ed e' hp hz h _ _ hc hpl
  have hw := at_place hp hz
  obtain ⟨f, args, a, g, s, t, n, h1, hf, ha, hv, hcf, rfl⟩ := sprintfRule_some h
  simp only [plainFormat, oneArg, fixAt, argsOf_call h1] at hc
  obtain ⟨hl, hc⟩ := hc
  obtain ⟨hb, hcodes⟩ := hc a (argBy_mem ha) g s hv
  have hex : ∃ ps, Spec.Ok ps ∧ render ps = s :=
    Classical.byContradiction fun hn => by rw [C54_invalid_found hb hn n] at hcf; simp at hcf
  obtain ⟨ps, ho, hr⟩ := hex
  subst hr
  obtain ⟨hcv, rfl⟩ := (C54_useless ho n t).mp hcf
  rw [show core (fixAt z _).z.e = _ from asCall_core hw h1, (ClosedCore.atom _ _).placed hpl]
  have hx : valueBy (items args) (cs! "fmt") 0 = some (.atom g .str (render ps)) := by simp [valueBy, ha, hv]
  exact .sprintf (fn_core hf (by decide)) (single_law hw h1 hl hx) ho hcv hcodes

end Jarl
