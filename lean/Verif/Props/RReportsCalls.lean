import Verif.Props.RReportsPlaces
import Verif.Lemmas.RLaws
/-!
# C55: the rules without fix about calls and assignments of nothing
-/
namespace Jarl
open Spec

theorem asCall_iff {e f args} : asCall e = some (f, args) ↔ ∃ g g2, e = .call f g .par args g2 := by
  cases e with
  | call h g b as g2 => cases b <;> simp [asCall]
  | _ => simp [asCall]

/-- browser reports exactly the calls of `browser`, with or without package. -/
theorem C55_browser {z : Zip} {s} : browserRule z = some s ↔ s = .browser ∧ ∃ f g args g2, z.e = .call f g .par args g2 ∧ fnName f = cs! "browser" := by
  rw [browserRule]
  constructor
  · intro h
    obtain ⟨⟨f, args⟩, hc, h⟩ := Option.bind_eq_some_iff.mp h
    obtain ⟨hn, h⟩ := guard_bind.mp h
    obtain ⟨g, g2, he⟩ := asCall_iff.mp hc
    injection h with h
    exact ⟨h.symm, f, g, args, g2, he, hn⟩
  · rintro ⟨rfl, f, g, args, g2, he, hn⟩
    rw [asCall_iff.mpr ⟨g, g2, he⟩]
    exact guard_bind.mpr ⟨hn, rfl⟩

/-- undesirable_function reports exactly the calls of the functions in the list. -/
theorem C55_undesirable_function {fns} {z : Zip} {s} :
    undesirableFunction fns z = some s ↔ ∃ f g args g2, z.e = .call f g .par args g2 ∧ fnName f ∈ fns ∧ s = .undesirable (fnName f) := by
  rw [undesirableFunction]
  constructor
  · intro h
    obtain ⟨⟨f, args⟩, hc, h⟩ := Option.bind_eq_some_iff.mp h
    obtain ⟨hn, h⟩ := guard_bind.mp h
    obtain ⟨g, g2, he⟩ := asCall_iff.mp hc
    injection h with h
    exact ⟨f, g, args, g2, he, hn, h.symm⟩
  · rintro ⟨f, g, args, g2, he, hn, rfl⟩
    rw [asCall_iff.mpr ⟨g, g2, he⟩]
    exact guard_bind.mpr ⟨hn, rfl⟩

/-- internal_function reports exactly `pkg:::name`. -/
theorem C55_internal_function {z : Zip} {s} : internalFunction z = some s ↔ s = .internal ∧ ∃ g pkg n, z.e = .atom g (.ns pkg true) n := by
  obtain ⟨fs, e⟩ := z
  rw [internalFunction]
  constructor
  · intro h
    split at h
    next g p n he => injection h with h; exact ⟨h.symm, g, p, n, he⟩
    next => cases h
  · rintro ⟨rfl, g, p, n, he⟩
    simp only at he
    subst he
    rfl

/-- empty_assignment reports exactly the assignments (with `=`, `<-` and `->`) of braces with nothing between. -/
theorem C55_empty_assignment {z : Zip} {s} : emptyAssignment z = some s ↔ s = .emptyAssign ∧
    ((∃ l g o b b2, z.e = .bin l g o (.braces b .snil b2) ∧ (o = .eq ∨ o = .assign)) ∨ ∃ b b2 g r, z.e = .bin (.braces b .snil b2) g .rassign r) := by
  obtain ⟨fs, e⟩ := z
  have hb : ∀ e, emptyBraces e = true ↔ ∃ b b2, e = .braces b .snil b2 := by
    intro e
    constructor
    · intro h
      rw [emptyBraces.eq_def] at h
      split at h
      · exact ⟨_, _, rfl⟩
      · cases h
    · rintro ⟨b, b2, rfl⟩; rfl
  cases e with
  | bin l g o r =>
    simp only [emptyAssignment, asBin, Option.bind_eq_bind, Option.bind_some, guard_bind]
    constructor
    · rintro ⟨ho, he, h⟩
      injection h with h
      refine ⟨h.symm, ?_⟩
      rcases ho with rfl | rfl | rfl
      · rw [if_neg (by simp), hb] at he
        obtain ⟨b, b2, rfl⟩ := he
        exact Or.inl ⟨_, _, _, _, _, rfl, Or.inl rfl⟩
      · rw [if_neg (by simp), hb] at he
        obtain ⟨b, b2, rfl⟩ := he
        exact Or.inl ⟨_, _, _, _, _, rfl, Or.inr rfl⟩
      · rw [if_pos rfl, hb] at he
        obtain ⟨b, b2, rfl⟩ := he
        exact Or.inr ⟨_, _, _, _, rfl⟩
    · rintro ⟨rfl, ⟨_, _, _, _, _, he, rfl | rfl⟩ | ⟨_, _, _, _, he⟩⟩ <;> cases he <;> simp [emptyBraces]
  | _ => simp [emptyAssignment, asBin]

/-! ## Downloads -/

theorem argValue_valueOf {a} (h : isArg a = true) : argValue a = valueOf a := by
  cases a with
  | named g k s g2 e => cases e <;> rfl
  | _ => first | rfl | (simp [isArg, isExpr] at h; done)

theorem argName_nameOf (a : Node) : argName a = nameOf a := by cases a <;> rfl

/-- Looking for an argument by name and then by position is what R does, if no parameter in front of it is given by name. -/
theorem valueBy_matchArg {params as x pos} (hok : ∀ a ∈ as, isArg a = true) (hx : params[pos]? = some x) (h1 : x ∉ params.take pos)
    (h2 : (∃ a ∈ as, nameOf a = some x) ∨ ∀ q ∈ params.take pos, ∀ a ∈ as, nameOf a ≠ some q) : valueBy as x pos = matchArg params as x := by
  have hf : as.find? (fun a => decide (nameOf a = some x)) = argByName as x := by
    unfold argByName; congr 1
  unfold matchArg valueBy argBy
  rw [hf]
  cases hn : argByName as x with
  | some a => exact argValue_valueOf (hok a (List.mem_of_find?_eq_some hn))
  | none =>
    have hnone : ∀ a ∈ as, nameOf a ≠ some x := by
      intro a ha; have := List.find?_eq_none.mp hn a ha; rw [← argName_nameOf]; simpa using this
    have h2 : ∀ q ∈ params.take pos, ∀ a ∈ as, nameOf a ≠ some q := by
      rcases h2 with ⟨a, ha, h⟩ | h
      · exact absurd h (hnone a ha)
      · exact h
    have : (params.filter (fun q => !as.any (fun a => decide (nameOf a = some q)))).findIdx? (· = x) = some pos := by
      refine findIdx_of hx h1 (fun q hq => ?_) ?_
      · simpa using h2 q hq
      · simpa using hnone
    simp only [this]
    have hu : unnamedArgs as = as.filter (fun a => (nameOf a).isNone) := by
      unfold unnamedArgs; congr 1
    rw [hu]
    cases hg : (as.filter (fun a => (nameOf a).isNone))[pos]? with
    | none => rfl
    | some a => exact argValue_valueOf (hok a (List.mem_filter.mp (List.mem_of_getElem? hg)).1)

theorem strText_iff {v s} : strText v = some s ↔ ∃ g, v = .atom g .str s := by
  cases v with
  | atom g k t => cases k <;> simp [strText]
  | _ => simp [strText]

/-- What download_file says about a mode. -/
def ModeSaid : Option Node → Said → Prop
  | none, s => s = .downloadNoMode
  | some v, s => (Quoted (cs! "w") v ∧ s = .downloadW) ∨ (Quoted (cs! "a") v ∧ s = .downloadA)

/-- What download_file reports, by name and position. -/
theorem download_by {z : Zip} {s} : downloadFile z = some s ↔ ∃ f g args g2, z.e = .call f g .par args g2 ∧ fnName f = cs! "download.file" ∧
    (¬ ∃ v, valueBy (items args) (cs! "method") 2 = some v ∧ (Quoted (cs! "wget") v ∨ Quoted (cs! "curl") v)) ∧
    ModeSaid (valueBy (items args) (cs! "mode") 4) s := by
  have hm : ∀ o : Option Node, (o.bind strText ∉ [some (cs! "\"wget\""), some (cs! "'wget'"), some (cs! "\"curl\""), some (cs! "'curl'")]) ↔
      ¬ ∃ v, o = some v ∧ (Quoted (cs! "wget") v ∨ Quoted (cs! "curl") v) := by
    intro o
    refine not_congr ?_
    simp only [List.mem_cons, List.not_mem_nil, or_false, Option.bind_eq_some_iff, strText_iff]
    constructor
    · rintro (⟨v, hv, g, h⟩ | ⟨v, hv, g, h⟩ | ⟨v, hv, g, h⟩ | ⟨v, hv, g, h⟩)
      · exact ⟨v, hv, Or.inl ⟨g, Or.inl h⟩⟩
      · exact ⟨v, hv, Or.inl ⟨g, Or.inr h⟩⟩
      · exact ⟨v, hv, Or.inr ⟨g, Or.inl h⟩⟩
      · exact ⟨v, hv, Or.inr ⟨g, Or.inr h⟩⟩
    · rintro ⟨v, hv, ⟨g, h | h⟩ | ⟨g, h | h⟩⟩
      · exact Or.inl ⟨v, hv, g, h⟩
      · exact Or.inr (Or.inl ⟨v, hv, g, h⟩)
      · exact Or.inr (Or.inr (Or.inl ⟨v, hv, g, h⟩))
      · exact Or.inr (Or.inr (Or.inr ⟨v, hv, g, h⟩))
  have hmode : ∀ (o : Option Node) (s : Said), ((match o with
      | none => some Said.downloadNoMode
      | some v => do
        let s ← strText v
        if s = cs! "\"w\"" ∨ s = cs! "'w'" then some .downloadW
        else if s = cs! "\"a\"" ∨ s = cs! "'a'" then some .downloadA
        else none) = some s) ↔ ModeSaid o s := by
    intro o s
    cases o with
    | none => simp [ModeSaid, eq_comm]
    | some v =>
      simp only [ModeSaid, Option.bind_eq_bind, Option.bind_eq_some_iff, strText_iff]
      constructor
      · rintro ⟨t, ⟨g, rfl⟩, h⟩
        split at h
        next ht => injection h with h; left; exact ⟨⟨g, by rcases ht with rfl | rfl; exact Or.inl rfl; exact Or.inr rfl⟩, h.symm⟩
        next =>
          split at h
          next ht => injection h with h; right; exact ⟨⟨g, by rcases ht with rfl | rfl; exact Or.inl rfl; exact Or.inr rfl⟩, h.symm⟩
          next => cases h
      · rintro (⟨⟨g, h | h⟩, rfl⟩ | ⟨⟨g, h | h⟩, rfl⟩)
        · exact ⟨_, ⟨g, h⟩, by decide⟩
        · exact ⟨_, ⟨g, h⟩, by decide⟩
        · exact ⟨_, ⟨g, h⟩, by decide⟩
        · exact ⟨_, ⟨g, h⟩, by decide⟩
  constructor
  · intro h
    rw [downloadFile] at h
    obtain ⟨⟨f, args⟩, hc, h⟩ := Option.bind_eq_some_iff.mp h
    obtain ⟨g, g2, he⟩ := asCall_iff.mp hc
    obtain ⟨hn, h⟩ := guard_bind.mp h
    obtain ⟨h1, h⟩ := guard_bind.mp h
    exact ⟨f, g, args, g2, he, hn, (hm _).mp h1, (hmode _ _).mp h⟩
  · rintro ⟨f, g, args, g2, he, hn, h1, h⟩
    rw [downloadFile, asCall_iff.mpr ⟨g, g2, he⟩]
    exact guard_bind.mpr ⟨hn, guard_bind.mpr ⟨(hm _).mpr h1, (hmode _ _).mpr h⟩⟩

/-- download_file reports exactly the downloads with mode `w`, `a` or without mode, unless the method is `wget` or `curl`, as R matches the arguments: if the mode is given by name or no parameter in
front of it is, and the same for the method. -/
theorem C55_download_file {fs : List Frame} {md f g args g2 s} (hw : WF md (.call f g .par args g2))
    (hmode : (∃ a ∈ items args, nameOf a = some (cs! "mode")) ∨ ∀ q ∈ [cs! "url", cs! "destfile", cs! "method", cs! "quiet"], ∀ a ∈ items args, nameOf a ≠ some q)
    (hmethod : (∃ a ∈ items args, nameOf a = some (cs! "method")) ∨ ∀ q ∈ [cs! "url", cs! "destfile"], ∀ a ∈ items args, nameOf a ≠ some q) :
    downloadFile ⟨fs, .call f g .par args g2⟩ = some s ↔ fnName f = cs! "download.file" ∧
      (¬ ∃ v, matchArg downloadParams (items args) (cs! "method") = some v ∧ (Quoted (cs! "wget") v ∨ Quoted (cs! "curl") v)) ∧
      ((matchArg downloadParams (items args) (cs! "mode") = none ∧ s = .downloadNoMode) ∨
       (∃ v, matchArg downloadParams (items args) (cs! "mode") = some v ∧ Quoted (cs! "w") v ∧ s = .downloadW) ∨
       ∃ v, matchArg downloadParams (items args) (cs! "mode") = some v ∧ Quoted (cs! "a") v ∧ s = .downloadA) := by
  simp only [WF] at hw
  have hok : ∀ a ∈ items args, isArg a = true := fun a ha => (items_ok hw.2.2.2.2.1 hw.2.2.2.2.2.1 hw.2.2.2.2.2.2 a ha).arg
  have h1 : valueBy (items args) (cs! "mode") 4 = matchArg downloadParams (items args) (cs! "mode") := valueBy_matchArg hok rfl (by decide) hmode
  have h2 : valueBy (items args) (cs! "method") 2 = matchArg downloadParams (items args) (cs! "method") := valueBy_matchArg hok rfl (by decide) hmethod
  rw [download_by, ← h1, ← h2]
  have hM : ∀ o : Option Node, ModeSaid o s ↔ ((o = none ∧ s = .downloadNoMode) ∨ (∃ v, o = some v ∧ Quoted (cs! "w") v ∧ s = .downloadW) ∨
      ∃ v, o = some v ∧ Quoted (cs! "a") v ∧ s = .downloadA) := by
    intro o
    cases o <;> simp [ModeSaid]
  rw [← hM]
  constructor
  · rintro ⟨_, _, _, _, he, h⟩
    cases he
    exact h
  · rintro h
    exact ⟨_, _, _, _, rfl, h⟩

/-! ## Arguments with the same name -/

theorem one_lt_countP {α : Type} {p : α → Bool} {as : List α} :
    1 < as.countP p ↔ ∃ (i j : Nat) (a b : α), i < j ∧ as[i]? = some a ∧ as[j]? = some b ∧ p a = true ∧ p b = true := by
  induction as with
  | nil => simp
  | cons x as ih =>
    rw [List.countP_cons]
    constructor
    · intro h
      by_cases hx : p x = true
      · rw [if_pos hx] at h
        have hpos : 0 < as.countP p := by omega
        obtain ⟨b, hb, hpb⟩ := List.countP_pos_iff.mp hpos
        obtain ⟨j, hj⟩ := List.getElem?_of_mem hb
        exact ⟨0, j + 1, x, b, by omega, rfl, hj, hx, hpb⟩
      · rw [if_neg hx] at h
        obtain ⟨i, j, a, b, hij, ha, hb, h1, h2⟩ := ih.mp h
        exact ⟨i + 1, j + 1, a, b, by omega, ha, hb, h1, h2⟩
    · rintro ⟨i, j, a, b, hij, ha, hb, h1, h2⟩
      cases j with
      | zero => omega
      | succ j =>
        cases i with
        | zero =>
          have : x = a := by simpa using ha
          subst this
          have : 0 < as.countP p := List.countP_pos_iff.mpr ⟨b, List.mem_of_getElem? hb, h2⟩
          rw [if_pos h1]; omega
        | succ i =>
          have := ih.mpr ⟨i, j, a, b, by omega, ha, hb, h1, h2⟩
          omega

theorem eraseDups_nodup (vs : List Str) : vs.eraseDups.Nodup := by
  generalize hn : vs.length = n
  induction n using Nat.strongRecOn generalizing vs with
  | ind n ih =>
    cases vs with
    | nil => simp
    | cons v vs =>
      rw [List.eraseDups_cons, List.nodup_cons]
      refine ⟨?_, ih _ ?_ _ rfl⟩
      · simp
      · have := List.length_filter_le (fun b => !b == v) vs
        simp only [List.length_cons] at hn
        omega

theorem mem_getDuplicates {vs n} : n ∈ getDuplicates vs ↔ 1 < vs.count n := by
  simp only [getDuplicates, List.mem_eraseDups, List.mem_filter, decide_eq_true_eq]
  constructor
  · exact fun h => h.2
  · intro h; exact ⟨List.count_pos_iff.mp (by omega), h⟩

/-- In a name without quotes inside, taking away all quotes is taking away those around it. -/
theorem bareName_plain {s} (h : PlainName s) : bareName s = unquote s := by
  obtain ⟨hne, hq⟩ := h
  have hfilter : ∀ t : Str, (∀ c ∈ t, c ≠ '"' ∧ c ≠ '\'' ∧ c ≠ '`') → t.filter (fun c => decide (c ≠ '\'' ∧ c ≠ '"' ∧ c ≠ '`')) = t := by
    intro t ht
    rw [List.filter_eq_self]
    intro c hc
    have := ht c hc
    simp [this.1, this.2.1, this.2.2]
  have quoted : ∀ (q : Char) (t : Str), (q = '"' ∨ q = '\'' ∨ q = '`') → t.getLast? = some q → t.dropLast ≠ [] → (∀ c ∈ t.dropLast, c ≠ '"' ∧ c ≠ '\'' ∧ c ≠ '`') →
      bareName (q :: t) = t.dropLast := by
    intro q t hqq hl hne hq
    obtain ⟨u, rfl⟩ := List.getLast?_eq_some_iff.mp hl
    simp only [List.dropLast_concat] at hne hq ⊢
    have hf : (q :: (u ++ [q])).filter (fun c => decide (c ≠ '\'' ∧ c ≠ '"' ∧ c ≠ '`')) = u := by
      rw [List.filter_cons, List.filter_append, hfilter u hq]
      rcases hqq with rfl | rfl | rfl <;> simp
    rw [bareName]
    simp only [hf]
    rw [if_neg hne]
  have plain : unquote s = s → bareName s = unquote s := by
    intro h
    rw [h] at hq hne
    rw [bareName, h]
    simp only [hfilter s hq]
    rw [if_neg hne]
  by_cases hu : unquote s = s
  · exact plain hu
  · rw [unquote.eq_def] at hne hq hu ⊢
    split at hne
    · split at hne
      next hl => simp only [if_pos hl] at hq ⊢; exact quoted _ _ (Or.inl rfl) hl hne hq
      next hl => simp only [if_neg hl] at hu; exact absurd trivial hu
    · split at hne
      next hl => simp only [if_pos hl] at hq ⊢; exact quoted _ _ (Or.inr (Or.inl rfl)) hl hne hq
      next hl => simp only [if_neg hl] at hu; exact absurd trivial hu
    · split at hne
      next hl => simp only [if_pos hl] at hq ⊢; exact quoted _ _ (Or.inr (Or.inr rfl)) hl hne hq
      next hl => simp only [if_neg hl] at hu; exact absurd trivial hu
    next h1 h2 h3 => exfalso; apply hu; split <;> simp_all

theorem dup_iff {as : List Node} (hp : ∀ a ∈ as, ∀ s, nameOf a = some s → PlainName s) {n} :
    n ∈ getDuplicates (as.filterMap (fun a => (argName a).map bareName)) ↔ SameName as n := by
  rw [mem_getDuplicates, List.count_filterMap, one_lt_countP]
  have key : ∀ a ∈ as, (((argName a).map bareName == some n) = true ↔ ∃ s, nameOf a = some s ∧ unquote s = n) := by
    intro a ha
    rw [argName_nameOf]
    cases hs : nameOf a with
    | none => simp
    | some s => simp [bareName_plain (hp a ha s hs)]
  constructor
  · rintro ⟨i, j, a, b, hij, ha, hb, h1, h2⟩
    obtain ⟨s, hs, hs'⟩ := (key a (List.mem_of_getElem? ha)).mp h1
    obtain ⟨t, ht, ht'⟩ := (key b (List.mem_of_getElem? hb)).mp h2
    exact ⟨i, j, a, b, s, t, hij, ha, hb, hs, ht, hs', ht'⟩
  · rintro ⟨i, j, a, b, s, t, hij, ha, hb, hs, ht, hs', ht'⟩
    exact ⟨i, j, a, b, hij, ha, hb, (key a (List.mem_of_getElem? ha)).mpr ⟨s, hs, hs'⟩, (key b (List.mem_of_getElem? hb)).mpr ⟨t, ht, ht'⟩⟩

/-- What duplicated_arguments reports is true: the names it lists are exactly those that several arguments have, and there is at least one. (Where no quotes are part of a name.) -/
theorem C55_duplicated_arguments {skipped fs f g args g2 s} (hp : ∀ a ∈ items args, ∀ s, nameOf a = some s → PlainName s)
    (h : duplicatedArguments skipped ⟨fs, .call f g .par args g2⟩ = .ok (some s)) :
    ∃ names, s = .dupArgs names ∧ names ≠ [] ∧ names.Nodup ∧ ∀ n, n ∈ names ↔ SameName (items args) n := by
  simp only [duplicatedArguments, asCall] at h
  split at h
  next => cases h
  next name hn =>
    split at h
    next => cases h
    next =>
      injection h with h
      split at h
      next => cases h
      next hne =>
        injection h with h
        exact ⟨_, h.symm, hne, eraseDups_nodup _, fun n => dup_iff hp⟩

/-- And all of them are found, in calls of functions by name that are not to be skipped and whose names do not start with `cli_`. -/
theorem C55_duplicated_arguments_found {skipped fs f g args g2 n name} (hp : ∀ a ∈ items args, ∀ s, nameOf a = some s → PlainName s)
    (hf : (∃ g, f = .atom g .id name) ∨ ∃ g pkg i, f = .atom g (.ns pkg i) name) (hs : name ∉ skipped) (hc : ¬ cs! "cli_" <+: name)
    (hd : SameName (items args) n) :
    ∃ names, duplicatedArguments skipped ⟨fs, .call f g .par args g2⟩ = .ok (some (.dupArgs names)) ∧ n ∈ names := by
  have hcallee : dupCallee f = some [tk (.atom .id name)] := by rcases hf with ⟨g, rfl⟩ | ⟨g, pkg, i, rfl⟩ <;> rfl
  have hskip : dupSkip skipped [tk (.atom .id name)] = false := by
    simp only [dupSkip, tk, atomText, Bool.or_eq_false_iff]
    refine ⟨decide_eq_false hs, ?_⟩
    rw [← Bool.not_eq_true, List.isPrefixOf_iff_prefix]; exact hc
  have hm := (dup_iff hp).mpr hd
  simp only [duplicatedArguments, asCall, hcallee, hskip, Bool.false_eq_true, if_false]
  rw [if_neg (List.ne_nil_of_mem hm)]
  exact ⟨_, rfl, hm⟩

/-- The functions to skip are skipped. -/
theorem C55_duplicated_arguments_skipped {skipped fs f g args g2 name}
    (hf : (∃ g, f = .atom g .id name) ∨ ∃ g pkg i, f = .atom g (.ns pkg i) name) (hs : name ∈ skipped ∨ cs! "cli_" <+: name) :
    duplicatedArguments skipped ⟨fs, .call f g .par args g2⟩ = .ok none := by
  have hcallee : dupCallee f = some [tk (.atom .id name)] := by rcases hf with ⟨g, rfl⟩ | ⟨g, pkg, i, rfl⟩ <;> rfl
  have hskip : dupSkip skipped [tk (.atom .id name)] = true := by
    simp only [dupSkip, tk, atomText, Bool.or_eq_true]
    refine hs.imp decide_eq_true (fun h => ?_)
    rw [List.isPrefixOf_iff_prefix]; exact h
  simp only [duplicatedArguments, asCall, hcallee, hskip, if_true]

/-! ## Options -/

/-- A list in the configuration replaces the default list or is added to it; both at once is refused. -/
theorem C55_options (base extend : Option (List Str)) (defaults : List Str) :
    (resolveWithExtend base extend defaults = none ↔ base.isSome ∧ extend.isSome) ∧
    ∀ vs, resolveWithExtend base extend defaults = some vs → ∀ n, n ∈ vs ↔
      (∃ b, base = some b ∧ n ∈ b) ∨ (base = none ∧ (n ∈ defaults ∨ ∃ e, extend = some e ∧ n ∈ e)) := by
  constructor
  · cases base <;> cases extend <;> simp [resolveWithExtend]
  · intro vs h n
    cases base <;> cases extend <;> simp [resolveWithExtend] at h <;> subst h <;> simp

end Jarl
