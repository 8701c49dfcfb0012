import Verif.Props.RWeight
/-!
# C67: fixes make programs lighter, the rest of the rules
-/
namespace Jarl
open Spec
variable [Want]

theorem lighter_bang {t : Zip} {name c w e' md} {g : Gap} {b : Bool} (h : ArgsW c w) (hn : name ∉ specialNames ∧ nameWeight name = 1) (hw : 4 + w < weight t.e)
    (he : isExpr e' = true) (hwe : WF md e') (ht : toks e' = joinHead g (if b = true then tk (.op .bang) :: callText name c else callText name c)) : Lighter t.fs.head? t.e e' := by
  split at ht
  · exact ((ExprW.callText h hn.1).bang.lighter (by rw [hn.2]; omega) he hwe ht).at _
  · exact ((ExprW.callText h hn.1).lighter (by rw [hn.2]; omega) he hwe ht).at _

theorem falls_equalsSpecial (special name both) (hn : name ∉ specialNames ∧ nameWeight name = 1) : FallsRule (equalsSpecial special name both) := by
  intro ts p z ed hp hz h md e' he hwe ht
  have hw := at_place hp hz
  unrule equalsSpecial h
  obtain ⟨l, o, r, h1, _, ho, _, _, _, _, rfl⟩ := h
  have ho := guard_some ho
  have hl : argBp ≤ lbp o ∧ argBp ≤ rbp o ∧ opWeight o = 5 := by
    rcases ho with rfl | rfl | ho
    · exact ⟨by decide, by decide, rfl⟩
    · exact ⟨by decide, by decide, rfl⟩
    · rw [of_decide_eq_true ho]; exact ⟨by decide, by decide, rfl⟩
  obtain ⟨g, hg⟩ := asBin_eq h1
  have k1 : weight z.e = weight l + 5 + weight r := by rw [hg, ← hl.2.2]; rfl
  have k2 := weight_pos (left_ok hw h1 hl.1).expr
  have k3 := weight_pos (right_ok hw h1 hl.2.1).expr
  have hc : ArgsW (trimmed (if special l then r else l)) (weight l + weight r - 1) := by
    split
    · exact (right_ok hw h1 hl.2.1).textW.mono (by omega)
    · exact (left_ok hw h1 hl.1).textW.mono (by omega)
  exact lighter_bang (t := z) (b := decide (o = .ne)) hc hn (by omega) he hwe (by simpa [fixAt] using ht)

theorem falls_classEquals : FallsRule classEquals := by
  intro ts p z ed hp hz h md e' he hwe ht
  have hw := at_place hp hz
  unrule classEquals h
  obtain ⟨l, o, r, h1, _, ho, _, _, c, s, hcs, rfl⟩ := h
  have ho := guard_some ho
  have hl : argBp ≤ lbp o ∧ argBp ≤ rbp o ∧ opWeight o = 5 := by
    rcases ho with rfl | rfl | rfl <;> exact ⟨by decide, by decide, rfl⟩
  obtain ⟨w, v, hc, hs, hle⟩ := classAndString_weight (left_ok hw h1 hl.1) (right_ok hw h1 hl.2.1) hcs
  obtain ⟨g, hg⟩ := asBin_eq h1
  have k1 : weight z.e = weight l + 5 + weight r := by rw [hg, ← hl.2.2]; rfl
  exact lighter_bang (t := z) (name := cs! "inherits") (b := decide (o = .ne)) (hc.comma hs) (by decide) (by omega) he hwe (by simpa [fixAt] using ht)

theorem falls_stringBoundary : FallsRule stringBoundary := by
  intro ts p z ed hp hz h md e' he hwe ht
  have hw := at_place hp hz
  unrule stringBoundary h
  obtain ⟨l, o, r, h1, _, ho, c, s, hcs, f, args, h2, _, _, x, ⟨ax, hax, hx⟩, _, _, _, _, name, hname, rfl⟩ := h
  have ho := guard_some ho
  have hl : argBp ≤ lbp o ∧ argBp ≤ rbp o ∧ opWeight o = 5 := by
    rcases ho with rfl | rfl <;> exact ⟨by decide, by decide, rfl⟩
  have o1 := left_ok hw h1 hl.1
  have o2 := right_ok hw h1 hl.2.1
  have : ExprOk c ∧ ExprOk s ∧ weight c + weight s = weight l + weight r := by
    revert hcs
    repeat' split
    all_goals (intro hc; first | (cases hc; done) | cases hc; first | exact ⟨o1, o2, rfl⟩ | exact ⟨o2, o1, by omega⟩)
  have hi := asCall_items this.1.wf h2
  have hm := List.mem_of_getElem? hax
  have k0 := item_weight hm
  have k2 := argValue_weight hx
  have k3 := asCall_ge this.1.wf h2
  obtain ⟨g, hg⟩ := asBin_eq h1
  have k1 : weight z.e = weight l + 5 + weight r := by rw [hg, ← hl.2.2]; rfl
  refine lighter_bang (t := z) (name := name) (b := decide (o = .ne)) ((argValue_ok (hi _ hm) hx).textW.comma this.2.1.textW) ?_ (by omega) he hwe (by simpa [fixAt] using ht)
  revert hname
  repeat' split
  all_goals (intro h; cases h <;> decide)

theorem falls_allEqualTrue : FallsRule allEqualTrue := by
  intro ts p z ed hp hz h md e' he hwe ht
  have hw := at_place hp hz
  unrule allEqualTrue h
  obtain ⟨_, _, f, args, h1, _, hf, h⟩ := h
  have hf := guard_some hf
  have hx := asCall_expr h1
  have hok : ExprOk z.e := ExprOk.of hx hw (Nat.le_trans (show argBp ≤ postfixBp by decide) (call_lp hw h1))
  have hc := ExprW.callText (name := cs! "isTRUE") hok.textW (by decide)
  rw [show nameWeight (cs! "isTRUE") = 1 by decide] at hc
  have hb : bare z.e = 4 := by unfold bare calls; rw [h1]; simp [hf]
  obtain ⟨fs, e⟩ := z
  simp only at h hb hc
  have cond : ∀ {fr : Frame} {fs' : List Frame} {g : Gap}, atCondition fr = true → atCallee fr = false → toks e' = joinHead g (callText (cs! "isTRUE") (trimmed e)) → Lighter (some fr) e e' := by
    intro fr fs' g h1 h2 ht
    obtain ⟨n, a, b, _, hn, d, f⟩ := hc
    rw [← hn] at ht
    obtain ⟨k, rfl⟩ := read_unique a b he hwe ht
    refine ⟨fun _ => by rw [weight_setGap, bare_setGap]; omega, fun h => absurd (by simp [h1]) h, fun h => by simp [h2] at h⟩
  split at h
  · cases h; exact cond (fs' := []) rfl rfl ht
  · cases h; exact cond (fs' := []) rfl rfl ht
  · cases h; exact cond (fs' := []) rfl rfl ht
  · next g o fs2 _ =>
    simp only [Option.bind_eq_some_iff, Option.some.injEq] at h
    obtain ⟨_, _, rfl⟩ := h
    exact (hc.bang.lighter (show _ < weight (Node.un g o e) by simp only [weight]; omega) he hwe ht).at _
  · cases h

theorem falls_redundantEquals : FallsRule redundantEquals := by
  intro ts p z ed hp hz h md e' he hwe ht
  have hw := at_place hp hz
  unrule redundantEquals h
  obtain ⟨l, o, r, h1, _, ho, keep, other, hc, rfl⟩ := h
  have ho := guard_some ho
  have hl : argBp ≤ lbp o ∧ argBp ≤ rbp o ∧ opWeight o = 5 ∧ follow o = 20 := by
    rcases ho with rfl | rfl <;> exact ⟨by decide, by decide, rfl, by decide⟩
  have o1 := left_ok hw h1 hl.1
  have o2 := right_ok hw h1 hl.2.1
  have k2 := weight_pos o1.expr
  have k3 := weight_pos o2.expr
  obtain ⟨g, hg⟩ := asBin_eq h1
  have k1 : weight z.e = weight l + 5 + weight r := by rw [hg, ← hl.2.2.1]; rfl
  have hx : ExprOk other ∧ weight other + 6 ≤ weight z.e ∧ 20 ≤ lp other := by
    rw [hg] at hw
    have hb := hw.2.2.2.2.2.2
    have q1 := rp_lp hw.1 hw.2.2.1 20 (by decide) (by decide) (by have := hb.1; have : lbp o = 20 := by { rcases ho with rfl | rfl <;> rfl }; omega)
    have q2 : 20 ≤ lp r := by have := hb.2; have : rbp o = 21 := by { rcases ho with rfl | rfl <;> rfl }; omega
    revert hc
    repeat' split
    all_goals (intro hc; first | (cases hc; done) | cases hc; first | exact ⟨o1, by omega, q1⟩ | exact ⟨o2, by omega, q2⟩)
  have hbare : bare other ≤ 4 := by unfold bare; split <;> omega
  -- a comparison is not the function of a call
  have hnc : z.fs.head?.map atCallee ≠ some true := by
    obtain ⟨fs, e⟩ := z
    simp only at hg
    subst hg hz
    cases fs with
    | nil => simp
    | cons fr fs =>
      have hwp := WF_plug (fs := fs) hp.2.1
      cases fr <;> simp [atCallee]
      have h5 : postfixBp < rp (.bin l g o r) := hwp.2.2.2.1
      have := bin_rp_le (l := l) (g := g) (o := o) (r := r)
      rw [hl.2.2.2] at this
      unfold postfixBp at *
      omega
  simp only [fixAt] at ht ⊢
  split at ht
  · rw [← trimmed_eq hx.1.expr hx.1.wf] at ht
    obtain ⟨k, rfl⟩ := read_unique (by rw [setGap_isExpr]; exact hx.1.expr) (setGap_wf hx.1.wf) he hwe ht
    refine ⟨fun _ => ?_, fun _ => ?_, fun h => absurd h hnc⟩
    · rw [weight_setGap, weight_setGap, bare_setGap, bare_setGap]; omega
    · rw [weight_setGap, weight_setGap]; omega
  · have ht' : toks e' = joinHead (headGap (toks z.e)) (toks (.un .none .bang (setGap .none other))) := by
      rw [ht]; simp [toks, tk, trimmed_eq hx.1.expr hx.1.wf]
    obtain ⟨k, rfl⟩ := read_unique (n := .un .none .bang (setGap .none other)) rfl
      ⟨by rw [setGap_isExpr]; exact hx.1.expr, setGap_wf hx.1.wf, 9, rfl, by rw [setGap_lp]; omega⟩ he hwe ht'
    have hbu : bare (setGap k (.un .none .bang (setGap .none other))) = 0 := rfl
    refine ⟨fun _ => ?_, fun _ => ?_, fun h => absurd h hnc⟩
    · rw [hbu, weight_setGap]; simp only [weight, weight_setGap, bare_setGap]; omega
    · rw [weight_setGap]; simp only [weight, weight_setGap, bare_setGap]; omega

/-- Where an argument with this name is, or the unnamed one at the position. -/
def placeOf (as : List Node) (n : Str) (pos : Nat) : Option Nat :=
  match as.findIdx? (fun a => argName a = some n) with
  | some i => some i
  | none => ((List.range as.length).filter (fun i => match as[i]? with | some a => (argName a).isNone | none => false))[pos]?

omit [Want] in
theorem placeOf_name {as n pos i} (h : placeOf as n pos = some i) : ∃ a, as[i]? = some a ∧ (argName a = some n ∨ (argName a = none ∧
    ((List.range as.length).filter (fun i => match as[i]? with | some a => (argName a).isNone | none => false))[pos]? = some i)) := by
  unfold placeOf at h
  split at h
  · next j hj =>
    cases h
    obtain ⟨hlt, h1, _⟩ := List.findIdx?_eq_some_iff_getElem.mp hj
    exact ⟨as[i], List.getElem?_eq_getElem hlt, Or.inl (of_decide_eq_true h1)⟩
  · have hm := (List.mem_filter.mp (List.mem_of_getElem? h)).2
    cases ha : as[i]? with
    | none => rw [ha] at hm; cases hm
    | some a => rw [ha] at hm; exact ⟨a, rfl, Or.inr ⟨by simpa using hm, h⟩⟩

omit [Want] in
theorem placeOf_ne {as n m i j a b} (ha : placeOf as n i = some a) (hb : placeOf as m j = some b) (hn : n ≠ m) (hi : i ≠ j) : a ≠ b := by
  rintro rfl
  obtain ⟨x, hx, h1⟩ := placeOf_name ha
  obtain ⟨y, hy, h2⟩ := placeOf_name hb
  rw [hx] at hy; cases hy
  rcases h1 with h1 | ⟨h1, h1'⟩ <;> rcases h2 with h2 | ⟨h2, h2'⟩
  · rw [h1] at h2; exact hn (Option.some.inj h2)
  · rw [h1] at h2; cases h2
  · rw [h1] at h2; cases h2
  · have hnd : ((List.range as.length).filter (fun i => match as[i]? with | some a => (argName a).isNone | none => false)).Nodup := List.nodup_range.filter _
    have hlt := (List.getElem?_eq_some_iff.mp h1').1
    exact hi ((List.getElem?_inj hlt hnd).mp (h1'.trans h2'.symm))

theorem falls_expectMatch (outer new : Str) (hn : new ∉ specialNames ∧ nameWeight new = 1) : FallsRule (expectMatch · outer new) := by
  intro ts p z ed hp hz h md e' he hwe ht
  have hw := at_place hp hz
  unrule expectMatch h
  obtain ⟨f, args, h1, _, _, _, _, obj, ho, g, gargs, h2, _, _, ip, hip, ix, hix, x, ⟨ax, hax, hx⟩, q, ⟨aq, haq, hq⟩, _, _, _, _, rfl⟩ := h
  have hne : ip ≠ ix := placeOf_ne (as := items gargs) (i := 0) (j := 1) (n := cs! "pattern") (m := cs! "x") hip hix (by decide) (by decide)
  have hob := valueBy_ok (asCall_items hw h1) ho
  have hi := asCall_items hob.wf h2
  have k1 := asCall_ge hw h1
  have k2 := valueBy_weight ho
  have k3 := asCall_ge hob.wf h2
  have k4 := items_weight gargs
  have k5 := sumBy_split (fun r : Node × Nat => argWeight r.1) (fun r => decide (r.2 ≠ ip ∧ r.2 ≠ ix)) (items gargs).zipIdx
  have mem : ∀ {i a}, (items gargs)[i]? = some a → (a, i) ∈ (items gargs).zipIdx := fun h => List.mem_zipIdx_iff_getElem?.mpr h
  have k6 : argWeight ax + argWeight aq ≤ sumBy (fun r : Node × Nat => argWeight r.1) ((items gargs).zipIdx.filter fun r => !decide (r.2 ≠ ip ∧ r.2 ≠ ix)) :=
    sumBy_pair (w := fun r : Node × Nat => argWeight r.1) (a := (ax, ix)) (b := (aq, ip)) (List.mem_filter.mpr ⟨mem hax, by simp⟩) (List.mem_filter.mpr ⟨mem haq, by simp⟩)
      (fun h => hne (Prod.mk.inj h).2.symm)
  have k7 : sumBy (fun r : Node × Nat => argWeight r.1) (items gargs).zipIdx = sumBy argWeight (items gargs) := by
    rw [← sumBy_map argWeight Prod.fst]; simp
  have k8 := argValue_weight hx
  have k9 := argValue_weight hq
  have k10 : argWeight x ≤ argWeight ax := by unfold argWeight; omega
  have k11 : argWeight q ≤ argWeight aq := by unfold argWeight; omega
  have join := ArgsW.join (w := weight gargs) (l := x :: q :: (((items gargs).zipIdx.filter fun r => decide (r.2 ≠ ip ∧ r.2 ≠ ix)).map (·.1)))
    (fun b hb => by
      simp only [List.mem_cons] at hb
      rcases hb with rfl | rfl | hb
      · exact (argValue_ok (hi _ (List.mem_of_getElem? hax)) hx).argOk
      · exact (argValue_ok (hi _ (List.mem_of_getElem? haq)) hq).argOk
      · obtain ⟨b', hb', rfl⟩ := List.mem_map.mp hb
        have := (List.mem_filter.mp hb').1
        exact hi _ (by obtain ⟨x, i⟩ := b'; exact List.mem_of_getElem? (List.mem_zipIdx_iff_getElem?.mp this)))
    (by rw [sumBy_cons, sumBy_cons, sumBy_map]; omega)
  exact lighter_prefixed (t := z) (c := joinComma (trimmed x :: trimmed q :: _)) join hn (by omega) he hwe ht

end Jarl
