import Verif.Spec.Fix
namespace Jarl
open Spec

theorem replaceRange_append (p o q new : Str) :
    replaceRange (p ++ o ++ q) (blen p) (blen p + blen o) new = some (p ++ new ++ q) := by
  unfold replaceRange
  rw [if_neg (by omega), List.append_assoc, splitAtByte_append]
  have : blen p + blen o - blen p = blen o := by omega
  simp only [this, splitAtByte_append]

theorem replaceRange_some {s new out : Str} {a b : Nat} (h : replaceRange s a b new = some out) :
    ∃ p o q, s = p ++ o ++ q ∧ blen p = a ∧ b = a + blen o ∧ out = p ++ new ++ q := by
  unfold replaceRange at h
  split at h
  · cases h
  · split at h
    · cases h
    · rename_i p r hp
      split at h
      · cases h
      · rename_i o q hq
        cases h
        obtain ⟨h1, h2⟩ := splitAtByte_some hp
        obtain ⟨h3, h4⟩ := splitAtByte_some hq
        exact ⟨p, o, q, by rw [h1, h3, List.append_assoc], h2, by omega, rfl⟩

theorem Rewritten_keep {pos : Nat} {k r : Str} {fs : List Fix} {o : Str}
    (h : Rewritten (pos + blen k) r fs o) : Rewritten pos (k ++ r) fs (k ++ o) := by
  cases h with
  | done => exact .done
  | @fix _ keep old rest f fs out h1 h2 h3 =>
    have := @Rewritten.fix pos (k ++ keep) old rest f fs out (by simp; omega) h2 h3
    simpa [List.append_assoc] using this

theorem slice_mid (doc p o q : Str) (h : doc = p ++ o ++ q) : slice (blen p) (blen p + blen o) doc = some o :=
  slice_iff.mpr ⟨p, q, h, rfl, rfl⟩

/-- State invariant of the loop over disjoint sorted fixes: the original is `C ++ rest`, of which `C`
(ending at byte `pos`) has become `P`. -/
structure FixInv (orig : Str) (st : FixState) (C P rest : Str) (applied : List Fix) : Prop where
  orig_eq : orig = C ++ rest
  content_eq : st.content = P ++ rest
  bytes : (blen P : Int) = blen C + (st.newLen - orig.length)
  chars : st.newLen = (st.content.length : Int)
  cont : ∀ fs o, Rewritten (blen C) rest fs o → Rewritten 0 orig (applied ++ fs) (P ++ o)

/-- A fix that is not skipped. -/
theorem fixStep_apply {orig : Str} {st : FixState} {C P keep old rest : Str} {applied : List Fix} {f : Fix}
    (inv : FixInv orig st C P (keep ++ old ++ rest) applied)
    (h1 : f.start = blen C + blen keep) (h2 : f.stop = f.start + blen old)
    (hs : blen f.content + old.length = blen old + f.content.length)
    (hge : ¬ (f.start : Int) + (st.newLen - orig.length) < st.lastPos) :
    ∃ st' P', fixStep orig.length st f = some st' ∧
      FixInv orig st' (C ++ keep ++ old) P' rest (applied ++ [f]) ∧ st'.skipped = st.skipped ∧
      st'.lastPos = f.stop + 2 * (st.newLen - orig.length) ∧ st'.newLen = st.newLen + blen f.content - (blen old : Nat) := by
  obtain ⟨e1, e2, e3, e4, e5⟩ := inv
  unfold fixStep
  simp only []
  rw [if_neg hge]
  have hn : ¬ ((f.start : Int) + (st.newLen - orig.length) < 0 ∨
      (f.stop : Int) + (st.newLen - orig.length) < 0) := by omega
  rw [if_neg hn]
  have ha : ((f.start : Int) + (st.newLen - orig.length)).toNat = blen (P ++ keep) := by
    simp only [blen_append]; omega
  have hb : ((f.stop : Int) + (st.newLen - orig.length)).toNat = blen (P ++ keep) + blen old := by
    simp only [blen_append]; omega
  have hc : st.content = (P ++ keep) ++ old ++ rest := by rw [e2]; simp [List.append_assoc]
  have hl : (st.content.length : Int) = P.length + keep.length + old.length + rest.length := by
    rw [hc]; simp only [List.length_append, Int.natCast_add]
  rw [ha, hb, hc, replaceRange_append]
  refine ⟨_, P ++ keep ++ f.content, rfl, ⟨?_, ?_, ?_, rfl, ?_⟩, rfl, by simp only; omega, ?_⟩
  · rw [e1]; simp [List.append_assoc]
  · rfl
  · simp only [blen_append, List.length_append, Int.natCast_add] at *
    omega
  · intro fs o h
    have h' : Rewritten (blen C) (keep ++ old ++ rest) (f :: fs) (keep ++ f.content ++ o) := by
      refine .fix h1 h2 ?_
      have : f.stop = blen (C ++ keep ++ old) := by simp; omega
      rw [this]; exact h
    have := e5 _ _ h'
    simpa [List.append_assoc] using this
  · simp only [List.length_append, Int.natCast_add] at *
    omega

theorem fixStep_real {orig : Str} {st : FixState} {C P keep old rest : Str} {applied : List Fix} {f : Fix}
    (inv : FixInv orig st C P (keep ++ old ++ rest) applied)
    (h1 : f.start = blen C + blen keep) (h2 : f.stop = f.start + blen old)
    (hs : blen f.content + old.length = blen old + f.content.length) :
    ∃ st' P' applied', fixStep orig.length st f = some st' ∧
      FixInv orig st' (C ++ keep ++ old) P' rest applied' ∧
      ((st'.skipped = true ∧ applied' = applied) ∨ (st'.skipped = st.skipped ∧ applied' = applied ++ [f])) := by
  by_cases hge : (f.start : Int) + (st.newLen - orig.length) < st.lastPos
  · obtain ⟨e1, e2, e3, e4, e5⟩ := inv
    unfold fixStep
    simp only [if_pos hge]
    refine ⟨_, P ++ keep ++ old, applied, rfl, ⟨?_, ?_, ?_, ?_, ?_⟩, .inl ⟨rfl, rfl⟩⟩
    · rw [e1]; simp [List.append_assoc]
    · simp only [e2]; simp [List.append_assoc]
    · simp only [blen_append]; omega
    · exact e4
    · intro fs o h
      have h' : Rewritten (blen C) (keep ++ old ++ rest) fs (keep ++ old ++ o) := by
        apply Rewritten_keep
        simpa [Nat.add_assoc] using h
      have := e5 fs _ h'
      simpa [List.append_assoc] using this
  · obtain ⟨st', P', a, b, c, _⟩ := fixStep_apply inv h1 h2 hs hge
    exact ⟨st', P', _, a, b, .inr ⟨c, rfl⟩⟩

theorem fixStep_placeholder {orig : Str} {st st' : FixState} {C P rest : Str} {applied : List Fix} {f : Fix}
    (inv : FixInv orig st C P rest applied) (hp : IsPlaceholder f)
    (h : fixStep orig.length st f = some st') :
    FixInv orig st' C P rest applied ∧ (st'.skipped = true ∨ st'.skipped = st.skipped) := by
  obtain ⟨e1, e2, e3, e4, e5⟩ := inv
  obtain ⟨p1, p2, p3⟩ := hp
  unfold fixStep at h
  simp only [] at h
  split at h
  · cases h; exact ⟨⟨e1, e2, e3, e4, e5⟩, .inl rfl⟩
  · split at h
    · cases h
    · split at h
      · cases h
      · rename_i c hc
        cases h
        obtain ⟨p, o, q, h1, h2, h3, h4⟩ := replaceRange_some hc
        have : blen o = 0 := by rw [p2, p3] at *; omega
        have ho : o = [] := by
          cases o with
          | nil => rfl
          | cons c cs => simp at this; have := c.utf8Size_pos; omega
        have hcc : c = st.content := by rw [h4, h1, ho, p1]
        subst hcc
        refine ⟨⟨e1, e2, ?_, rfl, e5⟩, .inr rfl⟩
        rw [e4] at e3; exact e3

theorem SameExtraBytes_use {doc C keep old rest : Str} {f : Fix} (h : SameExtraBytes doc f)
    (hd : doc = C ++ (keep ++ old ++ rest)) (h1 : f.start = blen C + blen keep) (h2 : f.stop = f.start + blen old) :
    blen f.content + old.length = blen old + f.content.length := by
  apply h
  have := slice_mid doc (C ++ keep) old rest (by rw [hd]; simp [List.append_assoc])
  rw [h2, h1]
  simpa using this

theorem fixLoop_disjoint {orig : Str} (ds : List Fix) :
    ∀ {st : FixState} {C P rest : Str} {applied real : List Fix} {full : Str},
    FixInv orig st C P rest applied →
    Rewritten (blen C) rest real full →
    (∀ f ∈ real, SameExtraBytes orig f) →
    (∃ keepFn : Fix → Bool, real = ds.filter keepFn ∧ ∀ f ∈ ds, keepFn f = false → IsPlaceholder f) →
    ∀ {st'}, fixLoop orig.length ds st = some st' →
    ∃ extra, extra.Sublist real ∧ Rewritten 0 orig (applied ++ extra) st'.content ∧
      (st.skipped = true → st'.skipped = true) ∧
      (st'.skipped = false → extra = real) := by
  induction ds with
  | nil =>
    intro st C P rest applied real full inv hr hs ⟨k, hk, _⟩ st' h
    simp only [List.filter_nil] at hk
    subst hk
    simp only [fixLoop, Option.some.injEq] at h
    subst h
    refine ⟨[], .slnil, ?_, id, fun _ => rfl⟩
    rw [inv.content_eq]
    exact inv.cont [] rest .done
  | cons d ds ih =>
    intro st C P rest applied real full inv hr hs ⟨k, hk, hpl⟩ st' h
    simp only [fixLoop] at h
    split at h
    · cases h
    · rename_i st1 hst1
      have hpl' : ∀ f ∈ ds, k f = false → IsPlaceholder f := fun f hf => hpl f (by simp [hf])
      cases hkd : k d with
      | false =>
        rw [List.filter_cons_of_neg (by simp [hkd])] at hk
        obtain ⟨inv1, hsk⟩ := fixStep_placeholder inv (hpl d (by simp) hkd) hst1
        obtain ⟨extra, x1, x2, x3, x4⟩ := ih inv1 hr hs ⟨k, hk, hpl'⟩ h
        refine ⟨extra, x1, x2, fun hsd => x3 ?_, x4⟩
        rcases hsk with h | h
        · exact h
        · rw [h, hsd]
      | true =>
        rw [List.filter_cons_of_pos hkd] at hk
        subst hk
        cases hr with
        | @fix _ keep old rest f fs out h1 h2 h3 =>
          have hsame := SameExtraBytes_use (hs d (by simp)) inv.orig_eq h1 h2
          obtain ⟨st2, P', ap', hst2, inv2, hcase⟩ := fixStep_real inv h1 h2 hsame
          rw [hst1] at hst2
          cases hst2
          have hstop : d.stop = blen (C ++ keep ++ old) := by simp; omega
          rw [hstop] at h3
          obtain ⟨extra, x1, x2, x3, x4⟩ := ih inv2 h3 (fun f hf => hs f (by simp [hf])) ⟨k, rfl, hpl'⟩ h
          rcases hcase with ⟨hs1, rfl⟩ | ⟨hs1, rfl⟩
          · refine ⟨extra, .cons _ x1, x2, fun _ => x3 hs1, fun hf => ?_⟩
            rw [x3 hs1] at hf; cases hf
          · refine ⟨d :: extra, .cons_cons _ x1, by simpa using x2, fun hsd => x3 (by rw [hs1, hsd]), fun hf => ?_⟩
            rw [x4 hf]

theorem fixLoop_total {orig : Str} (ds : List Fix) :
    ∀ {st : FixState} {C P rest : Str} {applied : List Fix} {full : Str},
    FixInv orig st C P rest applied →
    Rewritten (blen C) rest ds full →
    (∀ f ∈ ds, SameExtraBytes orig f) → ∃ st', fixLoop orig.length ds st = some st' := by
  induction ds with
  | nil => intro st _ _ _ _ _ _ _ _; exact ⟨st, rfl⟩
  | cons d ds ih =>
    intro st C P rest applied full inv hr hs
    cases hr with
    | @fix _ keep old rest f fs out h1 h2 h3 =>
      have hsame := SameExtraBytes_use (hs d (by simp)) inv.orig_eq h1 h2
      obtain ⟨st2, P', ap', hst2, inv2, _⟩ := fixStep_real inv h1 h2 hsame
      have hstop : d.stop = blen (C ++ keep ++ old) := by simp; omega
      rw [hstop] at h3
      obtain ⟨st', h'⟩ := ih inv2 h3 (fun f hf => hs f (by simp [hf]))
      exact ⟨st', by simp [fixLoop, hst2, h']⟩

/-- A fix that lies behind what is done already: it is flagged, or applied there. -/
theorem fixStep_behind {orig : Str} {st : FixState} {C P rest : Str} {applied : List Fix} {f : Fix} (inv : FixInv orig st C P rest applied) (hin : InText orig f) (hs : SameExtraBytes orig f)
    (hb : blen C ≤ f.start) :
    (fixStep orig.length st f = some { st with skipped := true }) ∨
    (∃ st' C' P' rest', fixStep orig.length st f = some st' ∧ FixInv orig st' C' P' rest' (applied ++ [f]) ∧ blen C' = f.stop ∧ st'.skipped = st.skipped ∧
      st'.lastPos = f.stop + 2 * (st.newLen - orig.length) ∧ st'.newLen = st.newLen + blen f.content - (f.stop - f.start : Nat)) := by
  obtain ⟨hle, old, ho⟩ := hin
  obtain ⟨p, q, hd, hp, hq⟩ := slice_iff.mp ho
  obtain ⟨keep, hk⟩ : ∃ keep, p = C ++ keep := by
    have h1 : C ++ rest = p ++ (old ++ q) := by rw [← inv.orig_eq, hd, List.append_assoc]
    rcases List.append_eq_append_iff.mp h1 with ⟨as, h, _⟩ | ⟨bs, h, h2⟩
    · exact ⟨as, h⟩
    · have hz : blen bs = 0 := by rw [h, blen_append] at hb; omega
      have : bs = [] := by
        cases bs with
        | nil => rfl
        | cons c cs => simp at hz; have := c.utf8Size_pos; omega
      subst this
      exact ⟨[], by simpa using h.symm⟩
  subst hk
  have hrest : rest = keep ++ old ++ q := by
    have := inv.orig_eq.symm.trans hd
    rw [List.append_assoc, List.append_assoc, List.append_cancel_left_eq] at this
    rw [this, List.append_assoc]
  subst hrest
  have e1 : f.start = blen C + blen keep := by rw [← hp, blen_append]
  have e2 : f.stop = f.start + blen old := by omega
  have hsame := hs old ho
  by_cases hlt : (f.start : Int) + (st.newLen - orig.length) < st.lastPos
  · left
    unfold fixStep
    simp only [if_pos hlt]
  · right
    obtain ⟨st', P', h2, inv2, h3, h4, h5⟩ := fixStep_apply inv e1 e2 hsame hlt
    exact ⟨st', _, P', _, h2, inv2, by simp; omega, h3, h4, by rw [h5]; omega⟩

theorem Apart_mono {a b : Nat} {fs : List Fix} (h : Apart b fs) (hab : a ≤ b) : Apart a fs := by
  induction fs generalizing a b with
  | nil => trivial
  | cons f fs ih => exact ⟨fun g hg hlt => by have := h.1 g hg hlt; omega, ih h.2 (by omega)⟩

/-- The loop over any fixes that are apart. -/
theorem fixLoop_apart {orig : Str} (isReal : Fix → Bool) (ds : List Fix) :
    ∀ {st : FixState} {C P rest : Str} {applied : List Fix} {lost : Nat},
    FixInv orig st C P rest applied → (∀ f ∈ ds, if isReal f then InText orig f ∧ SameExtraBytes orig f else IsPlaceholder f) →
    -(lost : Int) ≤ st.newLen - orig.length → Apart lost (ds.filter isReal) →
    (∀ g ∈ ds.filter isReal, g.start < blen C → g.start + (st.newLen - orig.length) < st.lastPos) →
    ∀ {st'}, fixLoop orig.length ds st = some st' →
    ∃ extra, extra.Sublist (ds.filter isReal) ∧ Rewritten 0 orig (applied ++ extra) st'.content ∧
      (st.skipped = true → st'.skipped = true) ∧ (st'.skipped = false → extra = ds.filter isReal) := by
  induction ds with
  | nil =>
    intro st C P rest applied lost inv _ _ _ _ st' h
    simp only [fixLoop, Option.some.injEq] at h
    subst h
    refine ⟨[], .slnil, ?_, id, fun _ => rfl⟩
    rw [inv.content_eq]
    exact inv.cont [] rest .done
  | cons d ds ih =>
    intro st C P rest applied lost inv hds hlost hap hguard st' h
    simp only [fixLoop] at h
    split at h
    · cases h
    · rename_i st1 hst1
      have hd := hds d (by simp)
      have hds' : ∀ f ∈ ds, if isReal f then InText orig f ∧ SameExtraBytes orig f else IsPlaceholder f := fun f hf => hds f (by simp [hf])
      cases hk : isReal d with
      | false =>
        rw [hk] at hd
        simp only [Bool.false_eq_true, if_false] at hd
        rw [List.filter_cons_of_neg (by simp [hk])] at hap hguard ⊢
        obtain ⟨inv1, hsk⟩ := fixStep_placeholder inv hd hst1
        have hnew : st1.newLen = st.newLen := by rw [inv1.chars, inv.chars, inv1.content_eq, inv.content_eq]
        have hg : ∀ g ∈ ds.filter isReal, g.start < blen C → g.start + (st1.newLen - orig.length) < st1.lastPos := by
          intro g hm hlt
          have h0 := hguard g hm hlt
          unfold fixStep at hst1
          simp only [] at hst1
          split at hst1
          · cases hst1; exact h0
          · rename_i hn
            rw [hd.2.1] at hn
            omega
        obtain ⟨extra, x1, x2, x3, x4⟩ := ih inv1 hds' (by rw [hnew]; exact hlost) hap hg h
        refine ⟨extra, x1, x2, fun hsd => x3 ?_, x4⟩
        rcases hsk with h | h
        · exact h
        · rw [h, hsd]
      | true =>
        rw [hk] at hd
        simp only [if_true] at hd
        rw [List.filter_cons_of_pos hk] at hap hguard ⊢
        have skip : st1 = { st with skipped := true } → ∃ extra, extra.Sublist (d :: ds.filter isReal) ∧ Rewritten 0 orig (applied ++ extra) st'.content ∧
            (st.skipped = true → st'.skipped = true) ∧ (st'.skipped = false → extra = d :: ds.filter isReal) := by
          rintro rfl
          have inv1 : FixInv orig { st with skipped := true } C P rest applied := ⟨inv.orig_eq, inv.content_eq, inv.bytes, inv.chars, inv.cont⟩
          obtain ⟨extra, x1, x2, x3, x4⟩ := ih inv1 hds' hlost (Apart_mono hap.2 (by omega)) (fun g hm => hguard g (by simp only [List.mem_cons]; exact .inr hm)) h
          refine ⟨extra, .cons _ x1, x2, fun _ => x3 rfl, fun hf => ?_⟩
          rw [x3 rfl] at hf; cases hf
        by_cases hb : blen C ≤ d.start
        · rcases fixStep_behind inv hd.1 hd.2 hb with hs | ⟨st2, C', P', rest', hs, inv2, hC, hsk, hlast, hnew⟩
          · rw [hst1] at hs
            exact skip (Option.some.inj hs)
          · rw [hst1] at hs
            cases hs
            have hle := hd.1.1
            have hl2 : -((lost + shrinkage d : Nat) : Int) ≤ st1.newLen - orig.length := by rw [hnew]; unfold shrinkage; omega
            have hg : ∀ g ∈ ds.filter isReal, g.start < blen C' → g.start + (st1.newLen - orig.length) < st1.lastPos := by
              intro g hm hlt
              have := hap.1 g hm (by omega)
              rw [hnew, hlast]
              omega
            obtain ⟨extra, x1, x2, x3, x4⟩ := ih inv2 hds' hl2 hap.2 hg h
            refine ⟨d :: extra, .cons_cons _ x1, by simpa using x2, fun hsd => x3 (by rw [hsk, hsd]), fun hf => ?_⟩
            rw [x4 hf]
        · have := hguard d (by simp) (by omega)
          unfold fixStep at hst1
          simp only [if_pos this, Option.some.injEq] at hst1
          exact skip hst1.symm

/-- Without placeholders it does not panic. -/
theorem fixLoop_apart_total {orig : Str} (ds : List Fix) :
    ∀ {st : FixState} {C P rest : Str} {applied : List Fix} {lost : Nat},
    FixInv orig st C P rest applied → (∀ f ∈ ds, InText orig f ∧ SameExtraBytes orig f) →
    -(lost : Int) ≤ st.newLen - orig.length → Apart lost ds →
    (∀ g ∈ ds, g.start < blen C → g.start + (st.newLen - orig.length) < st.lastPos) → ∃ st', fixLoop orig.length ds st = some st' := by
  induction ds with
  | nil => intro st _ _ _ _ _ _ _ _ _ _; exact ⟨st, rfl⟩
  | cons d ds ih =>
    intro st C P rest applied lost inv hds hlost hap hguard
    have hd := hds d (by simp)
    have skip : fixStep orig.length st d = some { st with skipped := true } → ∃ st', fixLoop orig.length (d :: ds) st = some st' := by
      intro hs
      have inv1 : FixInv orig { st with skipped := true } C P rest applied := ⟨inv.orig_eq, inv.content_eq, inv.bytes, inv.chars, inv.cont⟩
      obtain ⟨st', h⟩ := ih inv1 (fun f hf => hds f (by simp [hf])) hlost (Apart_mono hap.2 (by omega)) (fun g hm => hguard g (by simp [hm]))
      exact ⟨st', by simp only [fixLoop, hs]; exact h⟩
    by_cases hb : blen C ≤ d.start
    · rcases fixStep_behind inv hd.1 hd.2 hb with hs | ⟨st2, C', P', rest', hs, inv2, hC, hsk, hlast, hnew⟩
      · exact skip hs
      · have hle := hd.1.1
        have hl2 : -((lost + shrinkage d : Nat) : Int) ≤ st2.newLen - orig.length := by rw [hnew]; unfold shrinkage; omega
        have hg : ∀ g ∈ ds, g.start < blen C' → g.start + (st2.newLen - orig.length) < st2.lastPos := by
          intro g hm hlt
          have := hap.1 g hm (by omega)
          rw [hnew, hlast]
          omega
        obtain ⟨st', h⟩ := ih inv2 (fun f hf => hds f (by simp [hf])) hl2 hap.2 hg
        exact ⟨st', by simp only [fixLoop, hs]; exact h⟩
    · have := hguard d (by simp) (by omega)
      refine skip ?_
      unfold fixStep
      simp only [if_pos this]

theorem FixInv.init (orig : Str) : FixInv orig ⟨orig, 0, false, orig.length⟩ [] [] orig [] where
  orig_eq := rfl
  content_eq := rfl
  bytes := by simp
  chars := rfl
  cont := by intro fs o h; simpa using h

end Jarl
