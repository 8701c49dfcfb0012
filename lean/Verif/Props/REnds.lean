import Verif.Props.RWeight
import Verif.Props.RWeightRoom
import Verif.Props.RTextExamples
import Verif.Props.RTextFalse
/-!
# C67: fixing ends
-/
namespace Jarl
open Spec

/-! ### Lemmas -/

section
variable [Want]

theorem falls_all : ∀ q ∈ keepingRules, q.1 ≠ cs! "fixed_regex" → FallsRule q.2 ∨ q.2 = sprintfRule := by
  simp only [keepingRules, List.forall_mem_cons]
  refine ⟨fun _ => .inl falls_allEqualTrue, fun _ => .inl falls_anyIsNa, fun _ => .inl falls_anyIsNa2, fun _ => .inl falls_classIdentical, fun _ => .inl falls_classEquals,
    fun _ => .inl (falls_equalsSpecial _ _ _ (by decide)), fun _ => .inl (falls_equalsSpecial _ _ _ (by decide)), fun _ => .inl (falls_equalsSpecial _ _ _ (by decide)),
    fun _ => .inl falls_expectLength, fun _ => .inl (falls_expectMatch _ _ (by decide)), fun _ => .inl falls_expectNamed, fun _ => .inl (falls_expectMatch _ _ (by decide)),
    fun _ => .inl falls_expectNull, fun _ => .inl falls_expectS3Class, fun _ => .inl falls_expectTrueFalse, fun _ => .inl falls_expectType, fun h => absurd rfl h, fun _ => .inl falls_grepv,
    fun _ => .inl falls_isNumeric, fun _ => .inl falls_lengthLevels, fun _ => .inl falls_lengths, fun _ => .inl falls_list2df, fun _ => .inl falls_matrixApply,
    fun _ => .inl falls_numericLeadingZero, fun _ => .inl falls_redundantEquals, fun _ => .inl falls_sampleInt,
    fun _ => .inl falls_seq, fun _ => .inl falls_seq2, fun _ => .inl falls_sortRule, fun _ => .inl falls_stringBoundary, fun _ => .inl falls_systemFile,
    fun _ => .inl falls_trueFalseSymbol, fun _ => .inl falls_whichGrepl, fun _ => .inr trivial, fun _ h => by cases h⟩

theorem falls_ending {want : Op} (hw : Want.op = want) (hwa : want = .assign ∨ want = .eq) : ∀ q ∈ endingRules want, FallsRule q.2 ∨ q.2 = sprintfRule ∨ q.2 = redundantIfelse := by
  intro q hq
  simp only [endingRules, List.mem_append, or_assoc] at hq
  rcases hq with hq | hq | hq
  · obtain ⟨h1, h2⟩ := List.mem_filter.mp hq
    rcases falls_all q h1 (by simpa using h2) with h | h
    · exact .inl h
    · exact .inr (.inl h)
  · revert q
    simp only [roomRules, List.forall_mem_cons]
    exact ⟨.inl falls_allEqualFalse, .inl falls_anyDuplicated, .inl falls_comparisonNegation, .inl falls_lengthTest, .inl falls_outerNegation, .inr (.inr trivial), fun _ h => by cases h⟩
  · revert q
    simp only [List.forall_mem_cons]
    exact ⟨.inl falls_fixedRegexOnce, .inl (falls_assignmentTight hw hwa), .inl falls_coalesceTight, .inl falls_expectNotTight, .inl falls_repeatOutside, .inl falls_unnecessaryNesting, fun _ h => by cases h⟩

omit [Want] in
/-- The rules do not look at calls in the place of a function. -/
theorem lookedAt_call {p z c} (h : LookedAt p z) (hc : asCall z.e = some c) : z.fs.head?.map atCallee ≠ some true := by
  obtain ⟨_, _, h⟩ := h
  rcases h with h | ⟨h, _⟩
  · intro hf
    apply h
    obtain ⟨fs, e⟩ := z
    cases fs with
    | nil => cases hf
    | cons f fs =>
      cases f <;> first | (simp [atCallee] at hf; done) | exact ⟨[], _, fs, rfl, .inl trivial⟩
  · obtain ⟨fs, e⟩ := z
    cases e <;> first | (cases hc; done) | cases h

omit [Want] in
theorem redundantIfelse_place {z ed} (h : redundantIfelse z = some ed) : ed.z = z ∧ ∃ c, asCall z.e = some c := by
  unrule redundantIfelse h
  obtain ⟨f, args, h1, n1, n2, n3, _, _, _, c, hcv, t, _, e, _, h⟩ := h
  refine ⟨?_, _, h1⟩
  split at h
  · cases h; rfl
  · split at h
    · cases h; rfl
    · cases h

omit [Want] in
theorem sprintfRule_place {z ed} (h : sprintfRule z = some ed) : ed.z = z ∧ ∃ c, asCall z.e = some c := by
  obtain ⟨f, args, a, g, s, t, n, h1, _, _, _, _, he⟩ := sprintfRule_some h
  exact ⟨by rw [he]; rfl, _, h1⟩

/-- The fix makes the program lighter. -/
def FallsFix (ed : Edit) : Prop :=
  ∀ md e', isExpr e' = true → WF md e' → toks e' = joinHead (headGap (toks ed.z.e)) ed.content → Lighter ed.z.fs.head? ed.z.e e'

theorem FallsFix.congr {a a' : Edit} (h : FallsFix a) (he : a'.z.e = a.z.e) (hc : a'.content = a.content)
    (hk : ∀ k : Frame → Bool, (∀ t y y', k (Two.left t y) = k (Two.left t y')) → a'.z.fs.head?.map k = a.z.fs.head?.map k) : FallsFix a' := by
  intro md e' h1 h2 h3
  rw [he, hc] at h3
  have := h md e' h1 h2 h3
  unfold Lighter at *
  rw [hk atCondition (by intro t y y'; cases t <;> rfl), hk atCallee (by intro t y y'; cases t <;> rfl), he]
  exact this

theorem ending_fix {want : Op} (hw : Want.op = want) (hwa : want = .assign ∨ want = .eq) {ts p z ed} {q : Str × (Zip → Option Edit)} (hq : q ∈ endingRules want) (hp : Parses ts p)
    (hz : LookedAt p z) (h : q.2 z = some ed) : FallsFix ed := by
  have hat : ∀ r, FallsAt r → (∀ z ed, r z = some ed → ed.z = z ∧ ∃ c, asCall z.e = some c) → r z = some ed → FallsFix ed := by
    intro r hf hpl hr
    obtain ⟨h1, c, h2⟩ := hpl z ed hr
    exact hf ts p z ed hp hz.1 hr (by rw [h1]; exact lookedAt_call hz h2)
  rcases falls_ending hw hwa q hq with hf | hf | hf
  · exact hf ts p z ed hp hz.1 h
  · rw [hf] at h; exact hat _ falls_sprintfRule (fun _ _ => sprintfRule_place) h
  · rw [hf] at h; exact hat _ falls_redundantIfelse (fun _ _ => redundantIfelse_place) h

theorem Lighter.stays {f x x'} (h : Lighter f x x') (hx : isExpr x = true) (hx' : isExpr x' = true) : Stays x x' := by
  refine Stays.expr hx hx' ?_
  cases ht : textIs (cs! "TRUE") x with
  | false => exact .inr rfl
  | true =>
    left
    have hb : bare x = 0 := by
      unfold textIs at ht
      split at ht
      · cases ht
      · rfl
      · cases ht
    by_cases hc : f.map atCondition = some true
    · have := h.1 hc; omega
    · exact h.2.1 hc

theorem together_weight : ∀ (n : Nat) (eds : List Edit) (p q : Node) (ts out : List Tok), eds.length = n → Parses ts p → (∀ ed ∈ eds, GoodFix p ed ∧ FallsFix ed) →
    Patched 0 ts (eds.map cutOf) out → Parses out q → weight q + n ≤ weight p := by
  intro n
  induction n with
  | zero =>
    intro eds p q ts out hn hp _ h hq
    cases List.eq_nil_of_length_eq_zero hn
    cases h
    rw [C50_grammar_unambiguous hp hq]
    exact Nat.le_refl _
  | succ n ih =>
    intro eds p q ts out hn hp hg h hq
    rcases List.eq_nil_or_concat eds with rfl | ⟨init, b, rfl⟩
    · cases hn
    rw [List.concat_eq_append] at *
    have hlen : init.length = n := by simpa using hn
    obtain ⟨⟨hbp, hbe, y, hy, hty, hpy⟩, hfb⟩ := hg b (by simp)
    rw [List.map_append] at h
    obtain ⟨pre, old, post, hts, h1, h2, h3, h4⟩ := Patched.last h
    have htb : pre = beforeToks b.z.fs ∧ post = afterToks b.z.fs := by
      have e1 : beforeToks b.z.fs ++ toks b.z.e ++ afterToks b.z.fs = pre ++ old ++ post := by
        rw [← toks_plug, ← hts, ← hp.2.2, ← hbp]; rfl
      simp only [cutOf] at h1 h2
      rw [List.append_assoc, List.append_assoc] at e1
      obtain ⟨e2, e3⟩ := List.append_inj e1 (by omega)
      obtain ⟨_, e4⟩ := List.append_inj e3 (by omega)
      exact ⟨e2.symm, e4.symm⟩
    rw [htb.1, htb.2] at h4
    have hch : ∀ a, ∃ a' : Edit, a ∈ init → ((GoodFix (plug b.z.fs y) a' ∧ FallsFix a') ∧ cutOf a' = cutOf a) := by
      intro a
      by_cases ha : a ∈ init
      · obtain ⟨a', h1, h2, _, h4, h5, _, h7⟩ := goodFix_after hp (hg a (by simp [ha])).1 (hg b (by simp)).1 (h3 _ (List.mem_map_of_mem ha)) hpy
        exact ⟨a', fun _ => ⟨⟨h1, (hg a (by simp [ha])).2.congr h4 h5 h7⟩, h2⟩⟩
      · exact ⟨a, fun h => absurd h ha⟩
    obtain ⟨f, hf⟩ := Classical.axiomOfChoice hch
    have hcut : (init.map f).map cutOf = init.map cutOf := by
      rw [List.map_map]; exact List.map_congr_left fun a ha => (hf a ha).2
    have hrest := ih (init.map f) (plug b.z.fs y) q (edited b) out (by simp [hlen]) hpy
      (by intro ed hed; obtain ⟨a, ha, rfl⟩ := List.mem_map.mp hed; exact (hf a ha).1) (by rw [hcut]; exact h4) hq
    have hl0 := hfb _ y hy (WF_plug hpy.2.1) hty
    have hl := hl0.plug (hl0.stays hbe hy)
    have : plug b.z.fs b.z.e = p := hbp
    rw [this] at hl
    omega

/-! ### C67: tokens -/

theorem pass_weight {want : Op} (hw : Want.op = want) (hwa : want = .assign ∨ want = .eq) {ts out : List Tok} {p q : Node} {eds : List Edit} (hp : Parses ts p)
    (he : ∀ ed ∈ eds, ∃ r ∈ endingRules want, ∃ z, LookedAt p z ∧ r.2 z = some ed ∧ GoodFix p ed) (h : Patched 0 ts (eds.map cutOf) out) (hq : Parses out q) :
    weight q + eds.length ≤ weight p := by
  refine together_weight _ eds p q ts out rfl hp (fun ed hed => ?_) h hq
  obtain ⟨r, hr, z, hz, ho, hg⟩ := he ed hed
  exact ⟨hg, ending_fix hw hwa hr hp hz ho⟩

theorem fixesDone_weight {want : Op} (hw : Want.op = want) (hwa : want = .assign ∨ want = .eq) {n ts out p} (h : FixesDone (endingRules want) n ts out) (hp : Parses ts p) :
    ∃ q, Parses out q ∧ weight q + n ≤ weight p := by
  induction h with
  | none => exact ⟨p, hp, Nat.le_refl _⟩
  | more _ hb he hpt ih =>
    obtain ⟨q, hq, hw'⟩ := ih hp
    cases C50_grammar_unambiguous hb hq
    obtain ⟨q', hq', _⟩ := C57_fixes_together _ _ _ _ hb (fun ed hed => by
      obtain ⟨r, hr, z, _, _, hg⟩ := he ed hed; exact hg) hpt
    have := pass_weight hw hwa hb he hpt hq'
    exact ⟨q', hq', by omega⟩

/-! ### C67: text -/

omit [Want] in
theorem goodTexts {rules : List (Str × (Zip → Option Edit))} {p : Node} {eds : List (Edit × Str)} (he : GoodTexts rules p eds) :
    ∀ e ∈ eds, GoodFix p e.1 ∧ ∃ cs, Spells e.2 e.1.content cs ∧ Airy none cs := by
  intro e hm
  obtain ⟨⟨_, _, _, _, _, h⟩, hc⟩ := he e hm
  exact ⟨h, hc⟩

theorem textPass_weight {want : Op} (hw : Want.op = want) (hwa : want = .assign ∨ want = .eq) {text out : Str} {src : Src} {p : Node} {eds : List (Edit × Str)} (hr : ReadsAs text src p)
    (ha : Airy none src.pieces) (he : GoodTexts (endingRules want) p eds)
    (h : Rewritten 0 text (eds.map fun e => textFix src e.1 e.2) out) : ∃ src' q, ReadsAs out src' q ∧ Airy none src'.pieces ∧ weight q + eds.length ≤ weight p := by
  obtain ⟨src', q, h1, h2, _, _, h5⟩ := C66_text text src p eds out hr ha (goodTexts he) h
  refine ⟨src', q, h1, h2, ?_⟩
  have := pass_weight hw hwa (eds := eds.map (·.1)) hr.2 (by
    intro ed hed; obtain ⟨e, hm, rfl⟩ := List.mem_map.mp hed; exact (he e hm).1) h5 h1.2
  simpa using this

theorem textFixesDone_weight {want : Op} (hw : Want.op = want) (hwa : want = .assign ∨ want = .eq) {n a b src p} (h : TextFixesDone (endingRules want) n a b) (hr : ReadsAs a src p)
    (ha : Airy none src.pieces) : ∃ src' q, ReadsAs b src' q ∧ Airy none src'.pieces ∧ weight q + n ≤ weight p := by
  induction h with
  | none => exact ⟨src, p, hr, ha, Nat.le_refl _⟩
  | more _ hb he hrw ih =>
    obtain ⟨s1, q, hq, ha1, hw'⟩ := ih hr
    obtain ⟨rfl, rfl⟩ := C66_one_reading hb hq
    obtain ⟨s2, q', h1, h2, h3⟩ := textPass_weight hw hwa hb ha1 he hrw
    exact ⟨s2, q', h1, h2, by omega⟩

/-! ### C67: the loop over a file -/

/-- The weight of a text. -/
noncomputable def textWeight (a : Str) : Nat := open Classical in if h : ∃ src p, ReadsAs a src p then weight h.choose_spec.choose else 0

theorem textWeight_eq {a src p} (h : ReadsAs a src p) : textWeight a = weight p := by
  have hex : ∃ src p, ReadsAs a src p := ⟨src, p, h⟩
  unfold textWeight
  rw [dif_pos hex, (C66_one_reading hex.choose_spec.choose_spec h).2]

theorem reports_weight {want : Op} (hwo : Want.op = want) (hwa : want = .assign ∨ want = .eq) {a b : Str} {ds : List Diagnostic} {sk : Bool} (hc : ReportsGoodFixes (endingRules want) a ds) (hap : applyFixes (ds.map (·.fix)) a = some (sk, b))
    (hr : ∃ src p, ReadsAs a src p ∧ Airy none src.pieces) : (∃ src p, ReadsAs b src p ∧ Airy none src.pieces) ∧ (textWeight b < textWeight a ∨ sk = false ∧ b = a) := by
  obtain ⟨src, p, h1, h2⟩ := hr
  obtain ⟨eds, isReal, e1, e2, e3, e4, e5⟩ := hc src p h1
  obtain ⟨done, _, _, hd, _, hne, _, _, _, hrw⟩ := C66_apply_good a src p eds _ isReal h1 h2 (goodTexts e1) e2 e3 e4 e5 hap
  obtain ⟨src', q, g1, g2, g3⟩ := textPass_weight hwo hwa h1 h2 (fun e hm => e1 e (hd.subset hm)) hrw
  refine ⟨⟨src', q, g1, g2⟩, ?_⟩
  rw [textWeight_eq g1, textWeight_eq h1]
  cases hdn : done with
  | cons e l => rw [hdn] at g3; simp only [List.length_cons] at g3; exact .inl (by omega)
  | nil =>
    have he0 : eds = [] := by
      apply Classical.byContradiction; intro h; exact hne h hdn
    right
    have := C20_no_fix_no_change a (ds.map (·.fix)) (by
      intro f hf
      cases hk : isReal f with
      | false => exact e4 f hf hk
      | true =>
        have : f ∈ (ds.map (·.fix)).filter isReal := List.mem_filter.mpr ⟨hf, hk⟩
        rw [← e3, he0] at this
        cases this)
    rw [this] at hap
    cases hap
    exact ⟨rfl, rfl⟩

theorem lintFixLoop_weight {want : Op} (hwo : Want.op = want) (hwa : want = .assign ∨ want = .eq) {L : Lints} {pkg : PackageAnalysis} {cfg : Config} {path : Str} {io : Io} (hw : ∀ n, io.writeFails n = none)
    (hc : ∀ a ds, getChecks L pkg cfg path a = .ok ds → ReportsGoodFixes (endingRules want) a ds) : ∀ (fuel n : Nat) (sk : Bool) (a : Str) (b : Option Str) (res : _),
    (∃ src p, ReadsAs a src p ∧ Airy none src.pieces) → lintFixLoop L pkg cfg path io fuel n sk (some a) = (b, res) →
    ∃ t, b = some t ∧ (∃ src p, ReadsAs t src p ∧ Airy none src.pieces) ∧ (textWeight t < textWeight a ∨ t = a) := by
  intro fuel
  induction fuel with
  | zero => intro n sk a b res hr h; cases h; exact ⟨a, rfl, hr, .inr rfl⟩
  | succ fuel ih =>
    intro n sk a b res hr h
    rw [lintFixLoop] at h
    cases hrd : io.read n (some a) with
    | none => rw [hrd] at h; cases h; exact ⟨a, rfl, hr, .inr rfl⟩
    | some contents =>
      have hca : contents = a := by
        unfold Io.read at hrd
        split at hrd
        · cases hrd; rfl
        · cases hrd
      subst hca
      rw [hrd] at h
      simp only at h
      cases hch : getChecks L pkg cfg path contents with
      | error e => rw [hch] at h; cases h; exact ⟨contents, rfl, hr, .inr rfl⟩
      | ok ds =>
        rw [hch] at h
        simp only at h
        split at h
        · cases h; exact ⟨contents, rfl, hr, .inr rfl⟩
        · split at h
          · cases h; exact ⟨contents, rfl, hr, .inr rfl⟩
          · rename_i sk' text hap
            rw [hw n] at h
            simp only at h
            obtain ⟨g1, g2⟩ := reports_weight hwo hwa (hc _ _ hch) hap hr
            obtain ⟨t, h1, h2, h3⟩ := ih _ _ _ _ _ g1 h
            refine ⟨t, h1, h2, ?_⟩
            rcases g2 with g2 | ⟨_, rfl⟩
            · rcases h3 with h3 | rfl
              · exact .inl (by omega)
              · exact .inl g2
            · exact h3

end

/-! ### C67: main theorems. `want` is the assignment operator of the configuration. -/

/-- There is a bound on the number of fixes that can be carried out, however many passes there are and whichever of the possible fixes each of them carries out. -/
theorem C67_bounded (want : Op) (hwa : want = .assign ∨ want = .eq) (ts : List Tok) (p : Node) (hp : Parses ts p) : ∃ N, ∀ n out, FixesDone (endingRules want) n ts out → n ≤ N := by
  letI : Want := ⟨want⟩
  have hwo : Want.op = want := rfl
  refine ⟨weight p, fun n out h => ?_⟩
  obtain ⟨q, _, hw⟩ := fixesDone_weight hwo hwa h hp
  omega

/-- The same for the text of a file. -/
theorem C67_text_bounded (want : Op) (hwa : want = .assign ∨ want = .eq) (text : Str) (src : Src) (p : Node) (hr : ReadsAs text src p) (ha : Airy none src.pieces) :
    ∃ N, ∀ n out, TextFixesDone (endingRules want) n text out → n ≤ N := by
  letI : Want := ⟨want⟩
  have hwo : Want.op = want := rfl
  refine ⟨weight p, fun n out h => ?_⟩
  obtain ⟨_, q, _, _, hw⟩ := textFixesDone_weight hwo hwa h hr ha
  omega

/-- Fixing a file ends, whatever fails on the way: there is a number of passes that is enough. -/
theorem C67_fix_ends {want : Op} (hwa : want = .assign ∨ want = .eq) {L : Lints} {pkg : PackageAnalysis} {cfg : Config} {path : Str} (hc : ∀ a ds, getChecks L pkg cfg path a = .ok ds → ReportsGoodFixes (endingRules want) a ds)
    (a : Str) (hr : ∃ src p, ReadsAs a src p ∧ Airy none src.pieces) :
    ∃ N, ∀ (io : Io) (fuel : Nat), N ≤ fuel → ∃ b res, lintFix L pkg cfg path io fuel (some a) = (b, some res) := by
  letI : Want := ⟨want⟩
  have hwo : Want.op = want := rfl
  refine ⟨textWeight a + 2, fun io fuel hf => ?_⟩
  unfold lintFix
  split
  · exact ⟨_, _, rfl⟩
  · have := lintFixLoop_terminates_inv (L := L) (pkg := pkg) (cfg := cfg) (path := path) (io := io) (fun a => ∃ src p, ReadsAs a src p ∧ Airy none src.pieces) textWeight (by
      rintro a b hI ⟨checks, h1, h2⟩
      obtain ⟨g1, g2⟩ := reports_weight hwo hwa (hc _ _ h1) h2 hI
      rcases g2 with g2 | ⟨g2, _⟩
      · exact ⟨g1, g2⟩
      · cases g2) (textWeight a) fuel 0 true a hr (Nat.le_refl _) hf
    obtain ⟨res, hres⟩ := Option.isSome_iff_exists.mp this
    exact ⟨_, res, by rw [← hres]⟩

/-- Running `--fix` again and again: from some run on, the file stays as it is. -/
theorem C67_runs_end {want : Op} (hwa : want = .assign ∨ want = .eq) {L : Lints} {pkg : PackageAnalysis} {cfg : Config} {path : Str} (hc : ∀ a ds, getChecks L pkg cfg path a = .ok ds → ReportsGoodFixes (endingRules want) a ds)
    (file : Nat → Str) (hr : ∃ src p, ReadsAs (file 0) src p ∧ Airy none src.pieces)
    (hrun : ∀ k, ∃ (io : Io) (fuel : Nat) (res : _), (∀ n, io.writeFails n = none) ∧ lintFix L pkg cfg path io fuel (some (file k)) = (some (file (k + 1)), res)) :
    ∃ K, ∀ k, K ≤ k → file k = file K := by
  letI : Want := ⟨want⟩
  have hwo : Want.op = want := rfl
  have step : ∀ k, (∃ src p, ReadsAs (file k) src p ∧ Airy none src.pieces) →
      (∃ src p, ReadsAs (file (k + 1)) src p ∧ Airy none src.pieces) ∧ (textWeight (file (k + 1)) < textWeight (file k) ∨ file (k + 1) = file k) := by
    intro k hk
    obtain ⟨io, fuel, res, hw, h⟩ := hrun k
    unfold lintFix at h
    split at h
    · injection h with h _
      injection h with h
      rw [← h]
      exact ⟨hk, .inr rfl⟩
    · obtain ⟨t, h1, h2, h3⟩ := lintFixLoop_weight hwo hwa hw hc fuel 0 true _ _ _ hk h
      cases h1
      exact ⟨h2, h3⟩
  have all : ∀ k, ∃ src p, ReadsAs (file k) src p ∧ Airy none src.pieces := by
    intro k
    induction k with
    | zero => exact hr
    | succ k ih => exact (step k ih).1
  have key : ∀ w k0, textWeight (file k0) ≤ w → ∃ K, ∀ k, K ≤ k → file k = file K := by
    intro w
    induction w with
    | zero =>
      intro k0 h0
      refine ⟨k0, fun k hk => ?_⟩
      induction k with
      | zero => cases Nat.le_zero.mp hk; rfl
      | succ k ih =>
        rcases Nat.lt_or_ge k k0 with h | h
        · have : k0 = k + 1 := by omega
          rw [this]
        · rcases (step k (all k)).2 with g | g
          · rw [ih h] at g; omega
          · rw [g]; exact ih h
    | succ w ihw =>
      intro k0 h0
      by_cases hst : ∀ k, k0 ≤ k → file k = file k0
      · exact ⟨k0, hst⟩
      · have : ∃ k1, textWeight (file k1) < textWeight (file k0) := by
          apply Classical.byContradiction
          intro hno
          apply hst
          intro k hk
          induction k with
          | zero => cases Nat.le_zero.mp hk; rfl
          | succ k ih =>
            rcases Nat.lt_or_ge k k0 with h | h
            · have : k0 = k + 1 := by omega
              rw [this]
            · rcases (step k (all k)).2 with g | g
              · rw [ih h] at g; exact absurd ⟨_, g⟩ hno
              · rw [g]; exact ih h
        obtain ⟨k1, hk1⟩ := this
        exact ihw k1 (by omega)
  exact key _ 0 (Nat.le_refl _)

/-! ### Examples (tests), and why `fixed_regex` is left out -/

theorem twoText_ending : GoodTexts (endingRules .assign) textZ1.prog twoEds := by
  intro e he
  have hg := goodFix_of_rule (fun _ h => h) twoText_reads twoText_fixes e he
  refine ⟨?_, hg.2⟩
  replace hg := hg.1
  simp only [twoEds, List.mem_cons, List.not_mem_nil, or_false] at he
  have hk : ∀ q ∈ keepingRules, q.1 ≠ cs! "fixed_regex" → q ∈ endingRules .assign := by
    intro q h1 h2
    simp only [endingRules, List.mem_append, or_assoc]
    exact .inl (List.mem_filter.mpr ⟨h1, by simpa using h2⟩)
  rcases he with rfl | rfl
  · exact ⟨(cs! "any_is_na", anyIsNa), hk _ (by simp [keepingRules]) (by decide), textZ1, (C53_looked_at _ _).mp (by decide +kernel), rfl, hg⟩
  · exact ⟨(cs! "length_levels", lengthLevels), hk _ (by simp [keepingRules]) (by decide), textZ2, (C53_looked_at _ _).mp (by decide +kernel), rfl, hg⟩

/-- Two fixes of these rules can be carried out in this file. -/
theorem C67_ex_two : TextFixesDone (endingRules .assign) 2 twoText twoFixed := by
  have h : applyFixes (twoEds.map fun e => textFix twoSrc e.1 e.2) twoText = some (false, twoFixed) := by decide +kernel
  obtain ⟨done, _, _, _, h2, _, _, _, _, hrw⟩ := C66_apply_fixes twoText twoSrc textZ1.prog twoEds _ (fun _ => true) twoText_reads twoText_airy twoText_fixes twoText_apart
    (List.filter_eq_self.mpr fun _ _ => rfl).symm (fun _ _ h => by cases h) twoText_bytes h
  rw [h2 rfl] at hrw
  exact .more (.none _) twoText_reads twoText_ending hrw

/-- `y = 1` -/
def loopBody : Node := .bin (nm (cs! "y")) .none .eq (num (cs! "1"))

/-- `while (TRUE) { y = 1 }` -/
def loopZ : Zip := ⟨[stmt1], .whileE .none .none (.atom .none .true (cs! "TRUE")) .none (.braces .none (.scons loopBody [] .snil) .none)⟩

/-- `repeat { y = 1 }` -/
def loopZ2 : Zip := ⟨[.sconsE [] .snil, .braces .none .none, .repE .none, stmt1], loopBody⟩

/-- The first fix. -/
def loopEd : Edit := ⟨loopZ, toks (.repE .none (.braces .none (.scons loopBody [] .snil) .none)), false⟩
/-- The second fix. -/
def loopEd2 : Edit := ⟨loopZ2, toks (.bin (nm (cs! "y")) .none .assign (num (cs! "1"))), false⟩

/-- Two passes, of `repeat` and of `assignment`. -/
theorem C67_ex_loop : FixesDone (endingRules .assign) 2 (toks loopZ.prog) (edited loopEd2) := by
  have e1 : repeatOutside loopZ = some loopEd := by decide +kernel
  have e2 : assignmentTight .assign loopZ2 = some loopEd2 := by decide +kernel
  have g1 : GoodFix loopZ.prog loopEd := ⟨rfl, rfl, .repE .none (.braces .none (.scons loopBody [] .snil) .none), rfl, by decide +kernel, parses_of (by decide +kernel)⟩
  have g2 : GoodFix loopZ2.prog loopEd2 := ⟨rfl, rfl, .bin (nm (cs! "y")) .none .assign (num (cs! "1")), rfl, by decide +kernel, parses_of (by decide +kernel)⟩
  have first : FixesDone (endingRules .assign) 1 (toks loopZ.prog) (toks loopZ2.prog) := by
    refine .more (eds := [loopEd]) (.none _) (parses_of (p := loopZ.prog) (by decide +kernel)) ?_ (.cut (keep := []) (old := toks loopZ.e) (rest := []) (out := []) rfl (by decide +kernel) (.done ..))
    intro ed hed
    cases List.mem_singleton.mp hed
    exact ⟨(cs! "repeat", repeatOutside), by simp [endingRules], loopZ, (C53_looked_at _ _).mp (by decide +kernel), e1, g1⟩
  refine .more (eds := [loopEd2]) first (parses_of (p := loopZ2.prog) (by decide +kernel)) ?_ (.cut (keep := beforeToks loopZ2.fs) (old := toks loopZ2.e) (rest := afterToks loopZ2.fs) (out := afterToks loopZ2.fs) rfl (by decide +kernel) (.done ..))
  intro ed hed
  cases List.mem_singleton.mp hed
  exact ⟨(cs! "assignment", assignmentTight .assign), by simp [endingRules], loopZ2, (C53_looked_at _ _).mp (by decide +kernel), e2, g2⟩

/-- The hypotheses of `C67_fix_ends` and `C67_runs_end` can be met. -/
theorem C67_ex_file : (∀ a ds, getChecks (plainLints twoFixes) exPkg exFixConfig (cs! "a.R") a = .ok ds → ReportsGoodFixes (endingRules .assign) a ds) ∧
    lintFix (plainLints twoFixes) exPkg exFixConfig (cs! "a.R") Io.good 2 (some twoText) = (some twoFixed, some (.ok [])) ∧ ∃ src p, ReadsAs twoText src p ∧ Airy none src.pieces := by
  refine ⟨?_, by rfl, _, _, twoText_reads, twoText_airy⟩
  intro a ds h src p hr
  obtain ⟨ds', h', hf⟩ := plain_checks twoFixes a (twoFixes_skip a)
  rw [h] at h'
  cases h'
  rw [hf]
  by_cases ha : a = twoText
  · subst ha
    obtain ⟨rfl, rfl⟩ := C66_one_reading hr twoText_reads
    refine ⟨twoEds, fun _ => true, twoText_ending, twoText_apart, ?_, fun _ _ h => (nomatch h), twoText_bytes⟩
    rw [List.filter_eq_self.mpr fun _ _ => rfl, twoFixes, if_pos rfl]
  · refine ⟨[], fun _ => true, fun _ h => (nomatch h), trivial, ?_, fun _ _ h => (nomatch h), fun _ h => (nomatch h)⟩
    rw [twoFixes, if_neg ha]; rfl

/-- With `fixed_regex` there is no bound (finding F41). -/
theorem C67_false_keeping : (∃ src p, ReadsAs (endless 0) src p) ∧ ∀ n, TextFixesDone keepingRules n (endless 0) (endless n) := by
  refine ⟨⟨_, _, endless_reads 0⟩, fun n => ?_⟩
  induction n with
  | zero => exact .none _
  | succ n ih =>
    have hr := grep_ranges n
    simp only [grepEds, List.map_cons, List.map_nil, List.cons.injEq, and_true] at hr
    refine .more (eds := [(⟨grepZ n, toks (cl (cs! "grep") (grepArgs (n + 1))), false⟩, piecesText (grepSrc (n + 1)).pieces)]) ih (endless_reads n) (fun e he => ?_) ?_
    · have he' : e ∈ grepEds n := by rw [List.mem_singleton.mp he, grepEds]; exact List.mem_cons_self ..
      have hg := goodFix_of_rule (fun _ h => h) (endless_reads n) (grep_texts n) e he'
      have hp : e.1 ∈ proposed onlyFixed .assign (grepProg n) := by rw [grep_proposed]; exact List.mem_map_of_mem he'
      obtain ⟨z, hz, q, hq, hon, ho⟩ := (C53_proposed _ _ _ _).mp hp
      have h1 : q ∈ (fixRules .assign).filter (fun q => onlyFixed q.1) := List.mem_filter.mpr ⟨hq, hon⟩
      have h2 : (fixRules .assign).filter (fun q => onlyFixed q.1) = [(cs! "fixed_regex", fixedRegex)] := rfl
      rw [h2] at h1
      cases List.mem_singleton.mp h1
      exact ⟨⟨_, by simp [keepingRules], z, hz, ho, hg.1⟩, hg.2⟩
    simp only [List.map_cons, List.map_nil]
    rw [hr.1, endless_eq n, endless_eq (n + 1)]
    exact .fix (keep := []) (old := piecesText (grepSrc n).pieces) (rest := ['\n']) rfl (by simp) .done

end Jarl
