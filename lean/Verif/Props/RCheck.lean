import Verif.Spec.RCheck
import Verif.Props.Comments
import Verif.Props.PlaceMain
import Verif.Props.RFoundMain
import Verif.Props.RReportsMain
import Verif.Props.RReportsPlaces
import Verif.Props.RTextExamples
/-!
# C80: what is reported about the code of a file
-/
namespace Jarl
open Jarl.Spec

/-! ## Ranges -/

theorem tokensAt_part {text : Str} {src : Src} {p : Node} {z : Zip} (hr : ReadsAs text src p) (hz : z.prog = p) {A B C : List Tok} (ht : toks z.e = A ++ B ++ C) (hB : B ≠ []) :
    TokensAt text src (beforeToks z.fs ++ A) B (partRange src z A.length (A.length + B.length)) := by
  have hsrc : piecesToks src.pieces = (beforeToks z.fs ++ A) ++ B ++ (C ++ afterToks z.fs) := by
    have h1 : toks p = src.toks := hr.2.2.2
    have h2 : toks p = beforeToks z.fs ++ toks z.e ++ afterToks z.fs := by rw [← hz]; exact toks_plug z.fs z.e
    show src.toks = _
    rw [← h1, h2, ht]; simp
  obtain ⟨l1, after, e1, e2, e3⟩ := List.map_eq_append_iff.1 hsrc
  obtain ⟨before, l2, e4, e5, e6⟩ := List.map_eq_append_iff.1 e2
  cases l2 with
  | nil => exact absurd e6.symm (by simpa using hB)
  | cons q inside =>
    have hlb : before.length = (beforeToks z.fs).length + A.length := by
      have := congrArg List.length e5; simpa using this
    have hlq : (q :: inside).length = B.length := by
      have := congrArg List.length e6; simpa using this
    have hp : src.pieces = before ++ ((q :: inside) ++ after) := by rw [e1, e4]; simp
    refine ⟨before, q, inside, after, by rw [hp]; simp, e5, e6, ?_, ?_⟩
    · rw [← reads_text hr]
      unfold Src.text
      rw [hp, piecesText_append, piecesText_append]
      simp [piecesText]
    · have hlb' : (beforeToks z.fs).length + A.length = before.length := hlb.symm
      have hle : (beforeToks z.fs).length + (A.length + B.length) = (before ++ (q :: inside)).length := by
        rw [List.length_append, hlq, hlb]; omega
      unfold partRange trimmedRange
      simp only [hlb', hle]
      have t1 : src.pieces.take before.length = before := by rw [hp]; simp
      have t2 : src.pieces.drop before.length = (q :: inside) ++ after := by rw [hp]; simp
      have t3 : src.pieces.take (before ++ (q :: inside)).length = before ++ (q :: inside) := by rw [hp, ← List.append_assoc]; exact List.take_left
      rw [t1, t2, t3, piecesText_append]
      simp [piecesText, Nat.add_assoc]

theorem rangeOf_place {text : Str} {src : Src} {p : Node} {z : Zip} (hr : ReadsAs text src p) (hz : LookedAt p z) : RangeOf text src z (placeRange src z) := by
  have hw : WF (modeAt z.fs) z.e := WF_plug (show WF .top (plug z.fs z.e) from (show plug z.fs z.e = p from hz.1) ▸ hr.2.2.1)
  have := tokensAt_part hr hz.1 (A := []) (B := toks z.e) (C := []) (by simp) (expr_toks hz.2.1 hw)
  simpa [RangeOf, partRange, placeRange] using this

/-- The range of a place is determined. -/
theorem tokensAt_unique {text : Str} {src : Src} {a b : List Tok} {r r' : Range} (h : TokensAt text src a b r) (h' : TokensAt text src a b r') : r = r' := by
  obtain ⟨b1, q1, i1, a1, e1, e2, e3, _, rfl⟩ := h
  obtain ⟨b2, q2, i2, a2, f1, f2, f3, _, rfl⟩ := h'
  have hl : b1.length = b2.length := by
    have h1 := congrArg List.length e2; have h2 := congrArg List.length f2
    simp [piecesToks] at h1 h2; omega
  have hl2 : (q1 :: i1).length = (q2 :: i2).length := by
    have h1 := congrArg List.length e3; have h2 := congrArg List.length f3
    simp [piecesToks] at h1 h2 ⊢; omega
  rw [e1, List.append_assoc, List.append_assoc] at f1
  obtain ⟨rfl, h2⟩ := List.append_inj f1 hl
  obtain ⟨h3, _⟩ := List.append_inj h2 hl2
  injection h3 with h4 h5
  subst h4; subst h5
  rfl

/-! ## The walk -/

theorem inOrder_ok {α β ε : Type} {f : α → Except ε (List β)} : ∀ {xs : List α} {out : List β}, inOrder f xs = .ok out →
    (∀ x ∈ xs, ∃ ys, f x = .ok ys) ∧ ∀ d, d ∈ out ↔ ∃ x ∈ xs, ∃ ys, f x = .ok ys ∧ d ∈ ys := by
  intro xs
  induction xs with
  | nil => intro out h; cases h; simp
  | cons x xs ih =>
    intro out h
    rw [inOrder] at h
    split at h
    · cases h
    · rename_i ys hy
      split at h
      · cases h
      · rename_i zs hzs
        cases h
        obtain ⟨i1, i2⟩ := ih hzs
        constructor
        · intro a ha
          rcases List.mem_cons.1 ha with rfl | ha
          · exact ⟨ys, hy⟩
          · exact i1 a ha
        · intro d
          rw [List.mem_append, i2]
          constructor
          · rintro (hd | ⟨a, ha, hd⟩)
            · exact ⟨x, by simp, ys, hy, hd⟩
            · exact ⟨a, List.mem_cons_of_mem _ ha, hd⟩
          · rintro ⟨a, ha, ys', hy', hd⟩
            rcases List.mem_cons.1 ha with rfl | ha
            · rw [hy] at hy'; cases hy'; exact .inl hd
            · exact .inr ⟨a, ha, ys', hy', hd⟩

theorem checkExpressions_ok {W : Wording} {inp : LintInput} {src : Src} {p : Node} {out : List Diagnostic} (h : checkExpressions W inp src p = .ok out) :
    (∀ v ∈ visits p, ∀ r ∈ inp.ruleSet, r.name ∈ rulesAt v → ∃ ys, callRule W inp.assignment.op src r.name v = .ok ys) ∧
    ∀ d, d ∈ out ↔ ∃ v ∈ visits p, ∃ r ∈ inp.ruleSet, r.name ∈ rulesAt v ∧ ∃ ys, callRule W inp.assignment.op src r.name v = .ok ys ∧ d ∈ ys := by
  unfold checkExpressions at h
  split at h
  · rename_i ds hds
    cases h
    obtain ⟨h1, h2⟩ := inOrder_ok hds
    have hmem : ∀ v n, n ∈ (rulesAt v).filter (fun n => inp.ruleSet.any (fun r => r.name = n)) ↔ n ∈ rulesAt v ∧ ∃ r ∈ inp.ruleSet, r.name = n := by
      intro v n; simp [List.mem_filter]
    constructor
    · intro v hv r hr hn
      obtain ⟨ys, hy⟩ := h1 v hv
      exact (inOrder_ok hy).1 _ ((hmem v _).2 ⟨hn, r, hr, rfl⟩)
    · intro d
      rw [h2]
      constructor
      · rintro ⟨v, hv, ys, hy, hd⟩
        obtain ⟨n, hn, zs, hz, hd⟩ := ((inOrder_ok hy).2 d).1 hd
        obtain ⟨hn, r, hr, rfl⟩ := (hmem v n).1 hn
        exact ⟨v, hv, r, hr, hn, zs, hz, hd⟩
      · rintro ⟨v, hv, r, hr, hn, ys, hy, hd⟩
        obtain ⟨out, ho⟩ := h1 v hv
        exact ⟨v, hv, out, ho, ((inOrder_ok ho).2 d).2 ⟨r.name, (hmem v _).2 ⟨hn, r, hr, rfl⟩, ys, hy, hd⟩⟩
  all_goals cases h

theorem callRule_name {W : Wording} {want : Op} {src : Src} {n : Str} {v : Look} {ys : List Diagnostic} (h : callRule W want src n v = .ok ys) : ∀ d ∈ ys, d.name = n := by
  intro d hd
  cases v with
  | loopVar z =>
    cases h
    obtain ⟨x, _, rfl⟩ := List.mem_map.1 hd
    rfl
  | node z =>
    rw [callRule] at h
    split at h
    · cases h
    · cases h; rw [List.mem_singleton] at hd; subst hd; rfl
    · split at h
      · split at h <;> cases h
        · cases hd
        · obtain ⟨x, _, rfl⟩ := List.mem_map.1 hd; rfl
      · cases h
        obtain ⟨x, _, rfl⟩ := List.mem_map.1 hd; rfl

/-! ## The file -/

theorem raw_code {rules : List Rule} {m : Manager} {exprs unreach : List Diagnostic} {dups unused : List (Str × Range × Str)} {r : Rule} (hc : CodeRule r)
    (hun : ∀ d ∈ unreach, d.name = Rule.unreachableCode.name) {d : Diagnostic} (hd : d ∈ rawDiagnostics rules m exprs unreach dups unused) (hn : d.name = r.name) : d ∈ exprs := by
  have com : ∀ {s : Rule} {b hp : Str} {l : List Range}, d ∈ gate rules s (commentDiags s b hp l) → r = s := by
    intro s b hp l hm
    obtain ⟨c, _, rfl⟩ := List.mem_map.mp (mem_gate.mp hm).2
    exact (Rule.name_inj hn).symm
  have pk : ∀ {s : Rule} {b : Str} {l : List (Str × Range × Str)}, d ∈ gate rules s (pkgDiags s b l) → r = s := by
    intro s b l hm
    obtain ⟨⟨_, _, _⟩, _, rfl⟩ := List.mem_map.mp (mem_gate.mp hm).2
    exact (Rule.name_inj hn).symm
  unfold rawDiagnostics at hd
  simp only [List.mem_append] at hd
  simp only [CodeRule, List.mem_cons, List.not_mem_nil, or_false, not_or] at hc
  obtain ⟨c1, c2, c3, c4, c5, c6, c7, c8, c9, c10, c11⟩ := hc
  rcases hd with ((((((((((hd | hd) | hd) | hd) | hd) | hd) | hd) | hd) | hd) | hd) | hd) | hd
  · exact hd
  · exact absurd (Rule.name_inj (hn.symm.trans (hun d (mem_gate.mp hd).2))) c11
  all_goals first
    | exact absurd (com hd) (by assumption)
    | exact absurd (pk hd) (by assumption)

/-- What a successful check of an R file reports about its code. -/
theorem reported_iff {W : Wording} {L : Lints} (hL : RunsRules W L) (hP : ParserOk L) {pkg : PackageAnalysis} {cfg : Config} {file contents : Str} {ds : List Diagnostic}
    (hr : hasRmdExtension file = false) (h : getChecks L pkg cfg file contents = .ok ds) {pr : Parsed} (hp : L.parse contents = some pr) {src : Src} {p : Node} (hread : ReadsAs contents src p)
    {r : Rule} (hc : CodeRule r) (hun : ∀ es, L.unreachable cfg.lintInput contents = .ok es → ∀ d ∈ es, d.name = Rule.unreachableCode.name) (Q : Diagnostic → Prop)
    (hQ : ∀ d f l x, Q { d with filename := f, fix := x, location := l } ↔ Q d) :
    (∃ d ∈ ds, d.name = r.name ∧ Q d) ↔
      r ∈ cfg.rulesToApply ∧ ∃ v ∈ visits p, r.name ∈ rulesAt v ∧ ∃ ys, callRule W cfg.assignment.op src r.name v = .ok ys ∧ ∃ d ∈ ys, Q d ∧ ¬ Hidden pr.root contents d := by
  obtain ⟨p', m, exprs, unreach, t, hp', hm, he, hu, ht, rfl⟩ := getChecksR_ok hr h
  rw [hp] at hp'; cases hp'
  have hcs := hP _ _ hp
  obtain ⟨keep, hkeep, hfil⟩ := C08_hidden_iff_suppressed hcs hm
    (rawDiagnostics cfg.rulesToApply m exprs unreach (pkg.duplicates file) (pkg.unused file))
  rw [hL _ _ _ _ hread] at he
  have hx := checkExpressions_ok he
  have hun' : ∀ d ∈ unreach, d.name = Rule.unreachableCode.name := by
    unfold unreachableDiags at hu
    split at hu
    · exact hun _ hu
    · cases hu; intro d hd; cases hd
  have hset : ∀ d, Q (located (findNewLines t) (applyFixSettings cfg file d)) ↔ Q d := by
    intro d
    have e : located (findNewLines t) (applyFixSettings cfg file d) =
        { d with filename := file, fix := (applyFixSettings cfg file d).fix, location := findRowCol d.range.start (findNewLines t) } := by
      obtain ⟨a1, a2, a3, a4, a5, a6⟩ := applyFixSettings_same cfg file d
      generalize applyFixSettings cfg file d = x at *
      cases x; cases d
      simp only at a1 a2 a3 a4 a5
      subst a1; subst a2; subst a3; subst a4; subst a5
      rfl
    rw [e, hQ]
  have hname : ∀ d, (located (findNewLines t) (applyFixSettings cfg file d)).name = d.name := fun d => (applyFixSettings_same cfg file d).1
  have hstep : (∃ d ∈ (checkDocument cfg.rulesToApply m exprs unreach (pkg.duplicates file) (pkg.unused file)).map
      (fun d => located (findNewLines t) (applyFixSettings cfg file d)), d.name = r.name ∧ Q d) ↔ ∃ d ∈ exprs, d.name = r.name ∧ Q d ∧ ¬ Hidden pr.root contents d := by
    unfold checkDocument
    simp only [List.mem_map, List.mem_append, hfil]
    constructor
    · rintro ⟨_, ⟨d, hd | hd, rfl⟩, hn, hq⟩
      · rw [hname] at hn; rw [hset] at hq
        obtain ⟨h1, h2⟩ := List.mem_filter.1 hd
        exact ⟨d, raw_code hc hun' h1 hn, hn, hq, (hkeep d).1 h2⟩
      · exfalso
        rw [hname] at hn
        obtain ⟨rg, _, rfl⟩ := List.mem_map.mp (mem_gate.mp hd).2
        have : Rule.outdatedSuppression = r := Rule.name_inj hn
        subst this
        exact hc (by simp)
    · rintro ⟨d, hd, hn, hq, hh⟩
      refine ⟨_, ⟨d, .inl (List.mem_filter.2 ⟨?_, (hkeep d).2 hh⟩), rfl⟩, by rw [hname]; exact hn, by rw [hset]; exact hq⟩
      unfold rawDiagnostics
      simp only [List.mem_append, hd, true_or]
  rw [hstep]
  constructor
  · rintro ⟨d, hd, hn, hq, hh⟩
    obtain ⟨v, hv, r', hr', hin, ys, hy, hd⟩ := (hx.2 d).1 hd
    have : r' = r := Rule.name_inj ((callRule_name hy d hd).symm.trans hn)
    subst this
    exact ⟨hr', v, hv, hin, ys, hy, d, hd, hq, hh⟩
  · rintro ⟨hr', v, hv, hin, ys, hy, d, hd, hq, hh⟩
    exact ⟨d, (hx.2 d).2 ⟨v, hv, r, hr', hin, ys, hy, hd⟩, callRule_name hy d hd, hq, hh⟩

theorem hidden_at {root : SynNode} {text : Str} {r : Rule} {d : Diagnostic} (hn : d.name = r.name) : Hidden root text d ↔ HiddenAt root text r d.range := by
  unfold Hidden HiddenAt
  constructor
  · rintro ⟨r', hn', h⟩
    have : r' = r := Rule.name_inj (hn'.trans hn)
    subst this; exact h
  · intro h; exact ⟨r, hn.symm, h⟩

/-! ## Rules without fix -/

theorem sayRules_names (o : ROpts) : (sayRules o).map Prod.fst = sayNames := rfl

theorem fixRules_names (want : Op) : ((fixRules want).map Prod.fst).all (fun n => !sayNames.contains n) = true := rfl

theorem ruleOf_say {o : ROpts} {n : Str} {z : Zip} {s : Said} (h : ruleOf o n z = .ok (some s)) : n ∈ sayNames := by
  rw [ruleOf] at h
  split at h
  · rename_i q hq
    have hn : q.1 = n := by simpa using List.find?_some hq
    rcases List.mem_append.1 (List.mem_of_find?_eq_some hq) with hm | hm
    · rw [← hn, ← sayRules_names o]; exact List.mem_map_of_mem hm
    · exfalso
      have of : ∀ {f : Zip → Option RuleFail}, orFail f z ≠ .ok (some s) := by
        intro f; unfold orFail; split <;> simp
      simp only [failRules, List.mem_cons, List.not_mem_nil, or_false] at hm
      rcases hm with rfl | rfl | rfl <;> exact of h
  · cases h

theorem no_fix {want : Op} {n : Str} (hn : n ∈ sayNames) (z : Zip) : fixesOf want n (.node z) = [] := by
  unfold fixesOf
  have : (fixRules want).filter (fun q => q.1 = n) = [] := by
    rw [List.filter_eq_nil_iff]
    intro q hq
    simp only [decide_eq_true_eq]
    rintro rfl
    have := List.all_eq_true.1 (fixRules_names want) q.1 (List.mem_map_of_mem hq)
    simp [hn] at this
  rw [this]; rfl

theorem say_loopVar {z : Zip} {n : Str} (hn : n ∈ sayNames) : n ∉ rulesAt (.loopVar z) := by
  unfold rulesAt
  revert hn
  simp only [List.mem_singleton]
  rintro hn rfl
  revert hn; decide

/-- What a call of a rule without fix comes to. -/
theorem callRule_say {W : Wording} {want : Op} {src : Src} {n : Str} (hn : n ∈ sayNames) {z : Zip} {ys : List Diagnostic} (h : callRule W want src n (.node z) = .ok ys) (d : Diagnostic) :
    d ∈ ys ↔ ∃ s, ruleOf W.opts n z = .ok (some s) ∧ d = saidDiag W src n z s := by
  rw [callRule] at h
  split at h
  · cases h
  · rename_i s hs
    cases h
    constructor
    · intro hd; exact ⟨s, hs, List.mem_singleton.1 hd⟩
    · rintro ⟨s', hs', rfl⟩
      rw [hs] at hs'; cases hs'; simp
  · rename_i hs
    rw [no_fix hn] at h
    simp only [hn, if_true] at h
    cases h
    constructor
    · intro hd; cases hd
    · rintro ⟨s', hs', rfl⟩
      rw [hs] at hs'; cases hs'

/-- In terms of what the rules say (C55). -/
theorem said_reported {W : Wording} {L : Lints} (hL : RunsRules W L) (hP : ParserOk L) {pkg : PackageAnalysis} {cfg : Config} {file contents : Str} {ds : List Diagnostic}
    (hr : hasRmdExtension file = false) (h : getChecks L pkg cfg file contents = .ok ds) {pr : Parsed} (hp : L.parse contents = some pr) {src : Src} {p : Node} (hread : ReadsAs contents src p)
    {r : Rule} (hc : CodeRule r) (hun : ∀ es, L.unreachable cfg.lintInput contents = .ok es → ∀ d ∈ es, d.name = Rule.unreachableCode.name) (hs : r.name ∈ sayNames) (rg : Range) :
    (∃ d ∈ ds, d.name = r.name ∧ d.range = rg) ↔
      r ∈ cfg.rulesToApply ∧ ∃ z, LookedAt p z ∧ (∃ s, ruleOf W.opts r.name z = .ok (some s)) ∧ noteRange src r.name z = rg ∧ ¬ HiddenAt pr.root contents r rg := by
  rw [reported_iff hL hP hr h hp hread hc hun (fun d => d.range = rg) (fun _ _ _ _ => Iff.rfl)]
  refine and_congr_right fun hen => ?_
  constructor
  · rintro ⟨v, hv, hin, ys, hy, d, hd, hrg, hh⟩
    cases v with
    | loopVar z => exact absurd hin (say_loopVar hs)
    | node z =>
      obtain ⟨s, hs', rfl⟩ := (callRule_say hs hy d).1 hd
      refine ⟨z, (C53_looked_at p z).1 hv, ⟨s, hs'⟩, hrg, ?_⟩
      rw [hidden_at (r := r) rfl, hrg] at hh
      exact hh
  · rintro ⟨z, hz, ⟨s, hs'⟩, hrg, hh⟩
    have hin : r.name ∈ rulesAt (.node z) := ruleOf_called (by rw [hs']; simp)
    obtain ⟨p', m, exprs, unreach, t, hp', hm, he, hu, ht, rfl⟩ := getChecksR_ok hr h
    rw [hL _ _ _ _ hread] at he
    obtain ⟨ys, hy⟩ := (checkExpressions_ok he).1 (.node z) ((C53_looked_at p z).2 hz) r hen hin
    refine ⟨.node z, (C53_looked_at p z).2 hz, hin, ys, hy, _, (callRule_say hs hy _).2 ⟨s, hs', rfl⟩, hrg, ?_⟩
    rw [hidden_at (r := r) rfl]
    show ¬ HiddenAt pr.root contents r (noteRange src r.name z)
    rw [hrg]; exact hh

theorem about_iff {o : ROpts} {n : Str} (hn : n ∈ aboutRules) {z : Zip} : (∃ s, ruleOf o n z = .ok (some s)) ↔ About o n z := by
  obtain ⟨t1, t2, t3, t4, t5, t6, t7, t8, t9, t10, t11⟩ := C55_rule_table o z
  simp only [aboutRules, List.mem_cons, List.not_mem_nil, or_false] at hn
  rcases hn with rfl | rfl | rfl | rfl | rfl | rfl | rfl
  · rw [t1]; simp only [Except.ok.injEq, C55_browser]
    constructor
    · rintro ⟨s, _, f, g, args, g2, he, hf⟩; exact .browser he hf
    · intro h; cases h with | browser he hf => exact ⟨_, rfl, _, _, _, _, he, hf⟩
  · rw [t8]; simp only [Except.ok.injEq, C55_undesirable_function]
    constructor
    · rintro ⟨s, f, g, args, g2, he, hf, _⟩; exact .undesirable_function he hf
    · intro h; cases h with | undesirable_function he hf => exact ⟨_, _, _, _, _, he, hf, rfl⟩
  · rw [t7]; simp only [Except.ok.injEq, C55_internal_function]
    constructor
    · rintro ⟨s, _, g, pkg, n, he⟩; exact .internal_function he
    · intro h; cases h with | internal_function he => exact ⟨_, rfl, _, _, _, he⟩
  · rw [t4]; simp only [Except.ok.injEq, C55_empty_assignment]
    constructor
    · rintro ⟨s, _, ⟨l, g, op, b, b2, he, ho⟩ | ⟨b, b2, g, r, he⟩⟩
      · exact .empty_assignment he ho
      · exact .empty_right he
    · intro h
      cases h with
      | empty_assignment he ho => exact ⟨_, rfl, .inl ⟨_, _, _, _, _, he, ho⟩⟩
      | empty_right he => exact ⟨_, rfl, .inr ⟨_, _, _, _, he⟩⟩
  · rw [t5]; simp only [Except.ok.injEq, C55_vector_logic]
    constructor
    · rintro ⟨s, l, g, op, r, he, ho, hd, hx, _⟩; exact .vector_logic he ho hd hx
    · intro h
      cases h with
      | vector_logic he ho hd hx =>
        by_cases hi : Directly IfCond z.fs
        · exact ⟨_, _, _, _, _, he, ho, hd, hx, true, rfl, by simp [hi]⟩
        · exact ⟨_, _, _, _, _, he, ho, hd, hx, false, rfl, by simp [hi]⟩
  · rw [t6]; simp only [Except.ok.injEq, C55_implicit_assignment]
    constructor
    · rintro ⟨s, ha, hs, hw⟩
      refine .implicit_assignment ha hs ?_
      rcases hw with ⟨_, h⟩ | ⟨_, _, h⟩ | ⟨_, _, _, h⟩ | ⟨_, _, _, _, h⟩ <;> simp [h]
    · intro h
      cases h with
      | implicit_assignment ha hs hw =>
        by_cases h1 : InIf z.fs
        · exact ⟨.implicitIf, ha, hs, .inl ⟨rfl, h1⟩⟩
        · by_cases h2 : InWhile z.fs
          · exact ⟨.implicitWhile, ha, hs, .inr (.inl ⟨rfl, h1, h2⟩)⟩
          · by_cases h3 : InFor z.fs
            · exact ⟨.implicitFor, ha, hs, .inr (.inr (.inl ⟨rfl, h1, h2, h3⟩))⟩
            · exact ⟨.implicitArg, ha, hs, .inr (.inr (.inr ⟨rfl, h1, h2, h3, by simpa [h1, h2, h3] using hw⟩))⟩
  · rw [t10]; simp only [Except.ok.injEq, C55_for_loop_dup_index]
    constructor
    · rintro ⟨s, _, g, g2, gv, v, gi, q, g3, b, he, f, hf, hq⟩; exact .for_loop_dup_index he hf hq
    · intro h; cases h with | for_loop_dup_index he hf hq => exact ⟨_, rfl, _, _, _, _, _, _, _, _, he, _, hf, hq⟩

theorem range_about {text : Str} {src : Src} {p : Node} {z : Zip} {o : ROpts} {n : Str} (hr : ReadsAs text src p) (hz : LookedAt p z) (hn : n ∈ aboutRules) (ha : About o n z) (rg : Range) :
    noteRange src n z = rg ↔ RangeAbout text src n z rg := by
  have key : ∀ {a b : List Tok} {r0 : Range}, TokensAt text src a b r0 → (r0 = rg ↔ TokensAt text src a b rg) := by
    intro a b r0 h0
    exact ⟨fun e => e ▸ h0, fun h => tokensAt_unique h0 h⟩
  unfold RangeAbout
  split
  · rename_i hd
    subst hd
    cases ha with
    | for_loop_dup_index he hf hq =>
      rename_i g g2 gv v gi q g3 b f
      have hN : noteRange src (cs! "for_loop_dup_index") z = partRange src z 2 ((toks q).length + 4) := by
        unfold noteRange; rw [he]; simp
      have hT := tokensAt_part hr hz.1 (A := [⟨g, .for⟩, ⟨g2, .open .par⟩]) (B := ⟨gv, .atom .id v⟩ :: ⟨gi, .in⟩ :: toks q) (C := ⟨g3, .close .par⟩ :: toks b) (by rw [he]; simp [toks]) (by simp)
      have hl : ([⟨g, .for⟩, ⟨g2, .open .par⟩] : List Tok).length + ((⟨gv, .atom .id v⟩ : Tok) :: ⟨gi, .in⟩ :: toks q).length = (toks q).length + 4 := by simp; omega
      rw [hl] at hT
      rw [hN]
      constructor
      · intro e; exact ⟨g, g2, gv, v, gi, q, g3, b, he, (key hT).1 e⟩
      · rintro ⟨g', g2', gv', v', gi', q', g3', b', he', h'⟩
        rw [he] at he'; cases he'
        exact (key hT).2 h'
  · rename_i hd
    have hN : noteRange src n z = placeRange src z := by
      unfold noteRange
      simp only [aboutRules, List.mem_cons, List.not_mem_nil, or_false] at hn
      split
      · rw [if_neg]
        rintro (rfl | h)
        · revert hn; decide
        · exact hd h
      all_goals first
        | rfl
        | (rw [if_neg]; rintro rfl; revert hn; decide)
    rw [hN]
    exact key (rangeOf_place hr hz)

/-- **C80** (rules without fix). When the check of an R file goes through, what these rules report is exactly this: for every enabled rule, the code that it is about, wherever the rules look,
with the range of that code, unless a suppression comment hides it. -/
theorem C80_reports {W : Wording} {L : Lints} (hL : RunsRules W L) (hP : ParserOk L) {pkg : PackageAnalysis} {cfg : Config} {file contents : Str} {ds : List Diagnostic}
    (hr : hasRmdExtension file = false) (h : getChecks L pkg cfg file contents = .ok ds) {pr : Parsed} (hp : L.parse contents = some pr) {src : Src} {p : Node} (hread : ReadsAs contents src p)
    (hun : ∀ es, L.unreachable cfg.lintInput contents = .ok es → ∀ d ∈ es, d.name = Rule.unreachableCode.name) {r : Rule} (hs : r.name ∈ aboutRules) (rg : Range) :
    (∃ d ∈ ds, d.name = r.name ∧ d.range = rg) ↔
      r ∈ cfg.rulesToApply ∧ ∃ z, LookedAt p z ∧ About W.opts r.name z ∧ RangeAbout contents src r.name z rg ∧ ¬ HiddenAt pr.root contents r rg := by
  have hs' : r.name ∈ sayNames := by
    revert hs; cases r <;> decide
  have hc : CodeRule r := by
    intro hm
    revert hs
    simp only [List.mem_cons, List.not_mem_nil, or_false] at hm
    rcases hm with rfl | rfl | rfl | rfl | rfl | rfl | rfl | rfl | rfl | rfl | rfl <;> decide
  rw [said_reported hL hP hr h hp hread hc hun hs' rg]
  refine and_congr_right fun _ => exists_congr fun z => ?_
  constructor
  · rintro ⟨h1, h2, h3, h4⟩
    have ha := (about_iff hs).1 h2
    exact ⟨h1, ha, (range_about hread h1 hs ha rg).1 h3, h4⟩
  · rintro ⟨h1, h2, h3, h4⟩
    exact ⟨h1, (about_iff hs).2 h2, (range_about hread h1 hs h2 rg).2 h3, h4⟩

/-! ## Rules with fixes -/

/-- What a call of a rule with fixes comes to. -/
theorem callRule_fix {W : Wording} {want : Op} {src : Src} {n : Str} (hn : n ∉ sayNames) {z : Zip} {ys : List Diagnostic} (h : callRule W want src n (.node z) = .ok ys) {ed : Edit}
    (he : ed ∈ fixesOf want n (.node z)) : fixDiag W src n ed ∈ ys := by
  rw [callRule] at h
  split at h
  · cases h
  · rename_i s hs; exact absurd (ruleOf_say hs) hn
  · split at h
    · rename_i hf; rw [hf] at he; cases he
    · rename_i e es hf
      cases h
      rw [hf] at he
      exact List.mem_map_of_mem he

theorem fix_not_say {want : Op} {n : Str} {z : Zip} {ed : Edit} (he : ed ∈ fixesOf want n (.node z)) : n ∉ sayNames := by
  intro hn; rw [no_fix hn] at he; cases he

/-- In a successful check, what a rule proposes is in the reports, or a comment hides it. -/
theorem proposed_reported {W : Wording} {L : Lints} (hL : RunsRules W L) (hP : ParserOk L) {pkg : PackageAnalysis} {cfg : Config} {file contents : Str} {ds : List Diagnostic}
    (hr : hasRmdExtension file = false) (h : getChecks L pkg cfg file contents = .ok ds) {pr : Parsed} (hp : L.parse contents = some pr) {src : Src} {p : Node} (hread : ReadsAs contents src p)
    {r : Rule} (hc : CodeRule r) (hun : ∀ es, L.unreachable cfg.lintInput contents = .ok es → ∀ d ∈ es, d.name = Rule.unreachableCode.name) (hen : r ∈ cfg.rulesToApply) {ed : Edit}
    (he : ed ∈ proposed (fun n => n = r.name) cfg.assignment.op p) :
    HiddenAt pr.root contents r (fixRange src r.name ed) ∨ ∃ d ∈ ds, d.name = r.name ∧ d.range = fixRange src r.name ed := by
  by_cases hh : HiddenAt pr.root contents r (fixRange src r.name ed)
  · exact .inl hh
  refine .inr ((reported_iff hL hP hr h hp hread hc hun (fun d => d.range = fixRange src r.name ed) (fun _ _ _ _ => Iff.rfl)).2 ⟨hen, ?_⟩)
  simp only [proposed, reported, List.mem_flatMap, List.mem_filter, decide_eq_true_eq] at he
  obtain ⟨v, hv, n, ⟨hin, rfl⟩, hed⟩ := he
  obtain ⟨p', m, exprs, unreach, t, hp', hm, hx, hu, ht, _⟩ := getChecksR_ok hr h
  rw [hL _ _ _ _ hread] at hx
  obtain ⟨ys, hy⟩ := (checkExpressions_ok hx).1 v hv r hen hin
  refine ⟨v, hv, hin, ys, hy, ?_⟩
  cases v with
  | loopVar z => cases hed
  | node z =>
    refine ⟨_, callRule_fix (fix_not_say hed) hy hed, rfl, ?_⟩
    rw [hidden_at (r := r) rfl]
    exact hh

theorem found_names : (foundRules.map Prod.fst).all (fun n => n ≠ cs! "assignment" && !([Rule.blanketSuppression, .invalidChunkSuppression, .unexplainedSuppression, .misplacedFileSuppression,
    .misplacedSuppression, .misnamedSuppression, .unmatchedRangeSuppression, .outdatedSuppression, .duplicatedFunctionDefinition, .unusedFunction, .unreachableCode].map Rule.name).contains n) = true := by
  show List.all [_, _, _, _, _, _, _, _, _, _, _, _, _, _, _, _, _, _, _, _, _, _, _, _, _, _, _, _, _, _, _, _, _, _, _, _, _, _, _, _] _ = true
  decide +kernel

theorem law_repeat {e new : Node} (h : Law (cs! "repeat") (bare e) new) : ∃ g g2 c g3 b, e = .whileE g g2 c g3 b := by
  generalize ho : bare e = old at h
  generalize hn : (cs! "repeat") = n at h
  cases h
  case «repeat» =>
    cases e <;> simp only [bare, reduceCtorEq, Node.whileE.injEq] at ho
    exact ⟨_, _, _, _, _, rfl⟩
  all_goals (exfalso; revert hn; first | decide | (split <;> decide))

/-- **C80** (rules with fixes). When the check of an R file goes through, then for every enabled rule, all code that its documentation is about is reported, however it is laid out, wherever the
rules look, with the range of that code, unless a suppression comment hides it. (The conditions in `foundRules` are those of C63.) -/
theorem C80_found {W : Wording} {L : Lints} (hL : RunsRules W L) (hP : ParserOk L) {pkg : PackageAnalysis} {cfg : Config} {file contents : Str} {ds : List Diagnostic}
    (hr : hasRmdExtension file = false) (h : getChecks L pkg cfg file contents = .ok ds) {pr : Parsed} (hp : L.parse contents = some pr) {src : Src} {p : Node} (hread : ReadsAs contents src p)
    (hun : ∀ es, L.unreachable cfg.lintInput contents = .ok es → ∀ d ∈ es, d.name = Rule.unreachableCode.name) {r : Rule} (hen : r ∈ cfg.rulesToApply) {z : Zip} (hz : LookedAt p z)
    {q : Str × (Zip → Prop)} (hq : q ∈ foundRules) (hqr : q.1 = r.name) {new : Node} (hlaw : Law r.name (bare z.e) new) (hcond : q.2 z) :
    ∃ rg, RangeFound contents src r.name z rg ∧ (HiddenAt pr.root contents r rg ∨ ∃ d ∈ ds, d.name = r.name ∧ d.range = rg) := by
  have hnm := List.all_eq_true.1 found_names q.1 (List.mem_map_of_mem hq)
  rw [hqr] at hnm
  simp only [Bool.and_eq_true, Bool.not_eq_true', decide_eq_true_eq] at hnm
  have hc : CodeRule r := by
    intro hm
    have := List.contains_iff_mem.2 (List.mem_map_of_mem (f := Rule.name) hm)
    rw [hnm.2] at this; cases this
  obtain ⟨ed, hed, hze⟩ := C63_found hread.2 cfg.assignment.op hz q hq new (hqr.symm ▸ hlaw) hcond
  rw [hqr] at hed
  refine ⟨fixRange src r.name ed, ?_, proposed_reported hL hP hr h hp hread hc hun hen hed⟩
  unfold RangeFound
  split
  · rename_i hrep
    rw [hrep] at hlaw
    obtain ⟨g, g2, c, g3, b, he⟩ := law_repeat hlaw
    have hT := tokensAt_part hread hz.1 (A := []) (B := ⟨g, .while⟩ :: ⟨g2, .open .par⟩ :: toks c ++ [⟨g3, .close .par⟩]) (C := toks b) (by rw [he]; simp [toks]) (by simp)
    have hR : fixRange src r.name ed = partRange src z 0 ((toks c).length + 3) := by
      unfold fixRange; rw [hze, he]; simp [hrep]
    rw [hR]
    refine ⟨g, g2, c, g3, b, he, ?_⟩
    simpa using hT
  · rename_i hrep
    have hR : fixRange src r.name ed = placeRange src z := by
      unfold fixRange; rw [hze]
      split
      · rw [if_neg hnm.1]
      · rw [if_neg hrep]
      · rfl
    rw [hR]
    exact rangeOf_place hread hz

/-- **C80** (refusals). When the check of an R file goes through, no code that the enabled rules look at is such that a rule gives up on it (C56). -/
theorem C80_refused {W : Wording} {L : Lints} (hL : RunsRules W L) {pkg : PackageAnalysis} {cfg : Config} {file contents : Str} {ds : List Diagnostic}
    (hr : hasRmdExtension file = false) (h : getChecks L pkg cfg file contents = .ok ds) {src : Src} {p : Node} (hread : ReadsAs contents src p) {r : Rule} (hen : r ∈ cfg.rulesToApply) {z : Zip}
    (hz : LookedAt p z) (e : RuleFail) : ¬ Fails r.name z.e e := by
  intro hf
  obtain ⟨p', m, exprs, unreach, t, hp', hm, hx, hu, ht, _⟩ := getChecksR_ok hr h
  rw [hL _ _ _ _ hread] at hx
  have hw : WF (modeAt z.fs) z.e := WF_plug (show WF .top (plug z.fs z.e) from (show plug z.fs z.e = p from hz.1) ▸ hread.2.2.1)
  have hrule := (C56_rule_fails (o := W.opts) hw).2 hf
  obtain ⟨ys, hy⟩ := (checkExpressions_ok hx).1 (.node z) ((C53_looked_at p z).2 hz) r hen (ruleOf_called (by rw [hrule]; simp))
  rw [callRule, hrule] at hy
  cases hy

/-- **C80** (fixes). The fixes that a successful check of an R file hands on are those of the modelled rules: for a piece of code the rules look at, proposed by an enabled rule with fixes, for the
range of the code that is replaced, with the tokens of that proposal; the report is not hidden by a comment and the fix is not forbidden by the configuration or by a comment inside the code. -/
theorem C80_fixes {W : Wording} {L : Lints} (hL : RunsRules W L) (hP : ParserOk L) {pkg : PackageAnalysis} {cfg : Config} {file contents : Str} {ds : List Diagnostic}
    (hr : hasRmdExtension file = false) (h : getChecks L pkg cfg file contents = .ok ds) {pr : Parsed} (hp : L.parse contents = some pr) {src : Src} {p : Node} (hread : ReadsAs contents src p)
    (hun : ∀ es, L.unreachable cfg.lintInput contents = .ok es → ∀ d ∈ es, d.fix = Fix.empty) {d : Diagnostic} (hd : d ∈ ds) (hf : d.fix ≠ Fix.empty) :
    ∃ r ∈ cfg.rulesToApply, d.name = r.name ∧ r.fixStatus ≠ .none ∧ d.name ∉ cfg.unfixable ∧ (∀ l, cfg.fixable = some l → d.name ∈ l) ∧ ¬ HiddenAt pr.root contents r d.range ∧
      ∃ z, LookedAt p z ∧ ∃ q ∈ fixRules cfg.assignment.op, q.1 = r.name ∧ ∃ ed, q.2 z = some ed ∧ ed.skip = false ∧ d.range = fixRange src r.name ed ∧
        d.fix = textFix src ed (W.content src r.name ed) := by
  obtain ⟨p', m, exprs, unreach, t, hp', hm, he, hu, ht, rfl⟩ := getChecksR_ok hr h
  rw [hp] at hp'; cases hp'
  have hcs := hP _ _ hp
  obtain ⟨keep, hkeep, hfil⟩ := C08_hidden_iff_suppressed hcs hm
    (rawDiagnostics cfg.rulesToApply m exprs unreach (pkg.duplicates file) (pkg.unused file))
  rw [hL _ _ _ _ hread] at he
  obtain ⟨-, hx⟩ := checkExpressions_ok he
  obtain ⟨d0, hd0, rfl⟩ := List.mem_map.1 hd
  have hfix : (located (findNewLines t) (applyFixSettings cfg file d0)).fix = (applyFixSettings cfg file d0).fix := rfl
  rw [hfix] at hf
  have hden : ¬ FixDenied cfg d0 := fun hden => hf ((applyFixSettings_fix cfg file d0).1 hden)
  have hsame : (applyFixSettings cfg file d0).fix = d0.fix := (applyFixSettings_fix cfg file d0).2 hden
  rw [hsame] at hf
  have com : ∀ {s : Rule} {b hp : Str} {l : List Range}, d0 ∈ gate cfg.rulesToApply s (commentDiags s b hp l) → d0.fix = Fix.empty := by
    intro s b hp l hm
    obtain ⟨c, _, rfl⟩ := List.mem_map.mp (mem_gate.mp hm).2
    rfl
  have pk : ∀ {s : Rule} {b : Str} {l : List (Str × Range × Str)}, d0 ∈ gate cfg.rulesToApply s (pkgDiags s b l) → d0.fix = Fix.empty := by
    intro s b l hm
    obtain ⟨⟨_, _, _⟩, _, rfl⟩ := List.mem_map.mp (mem_gate.mp hm).2
    rfl
  unfold checkDocument at hd0
  rw [List.mem_append, hfil] at hd0
  have hraw : d0 ∈ exprs ∧ ¬ Hidden pr.root contents d0 := by
    rcases hd0 with hd0 | hd0
    · obtain ⟨h1, h2⟩ := List.mem_filter.1 hd0
      refine ⟨?_, (hkeep _).1 h2⟩
      unfold rawDiagnostics at h1
      simp only [List.mem_append] at h1
      rcases h1 with ((((((((((h1 | h1) | h1) | h1) | h1) | h1) | h1) | h1) | h1) | h1) | h1) | h1
      · exact h1
      · exfalso
        have h1 := (mem_gate.mp h1).2
        unfold unreachableDiags at hu
        split at hu
        · exact hf (hun _ hu _ h1)
        · cases hu; cases h1
      all_goals first
        | exact absurd (com h1) hf
        | exact absurd (pk h1) hf
    · exfalso
      obtain ⟨rg, _, rfl⟩ := List.mem_map.mp (mem_gate.mp hd0).2
      exact hf rfl
  obtain ⟨hin, hhid⟩ := hraw
  obtain ⟨v, hv, r, hen, hra, ys, hy, hd1⟩ := (hx d0).1 hin
  have hname := callRule_name hy d0 hd1
  obtain ⟨a1, _, _, _, a5, _⟩ := applyFixSettings_same cfg file d0
  have hlname : (located (findNewLines t) (applyFixSettings cfg file d0)).name = r.name := a1.trans hname
  have hlrange : (located (findNewLines t) (applyFixSettings cfg file d0)).range = d0.range := a5
  have hd2 : ∃ z, v = .node z ∧ ∃ ed ∈ fixesOf cfg.assignment.op r.name (.node z), d0 = fixDiag W src r.name ed := by
    cases v with
    | loopVar z =>
      cases hy
      obtain ⟨x, _, rfl⟩ := List.mem_map.1 hd1
      exact absurd rfl hf
    | node z =>
      refine ⟨z, rfl, ?_⟩
      rw [callRule] at hy
      split at hy
      · cases hy
      · cases hy; rw [List.mem_singleton] at hd1; subst hd1; exact absurd rfl hf
      · split at hy
        · split at hy <;> cases hy
          · cases hd1
          · obtain ⟨x, _, rfl⟩ := List.mem_map.1 hd1; exact absurd rfl hf
        · rename_i e es hfx
          cases hy
          obtain ⟨ed, hed, rfl⟩ := List.mem_map.1 hd1
          exact ⟨ed, by rw [← hfx] at hed; exact hed, rfl⟩
  obtain ⟨z, rfl, ed, hed, rfl⟩ := hd2
  unfold FixDenied at hden
  simp only [not_or, not_exists, not_and] at hden
  obtain ⟨n1, n2, n3, n4⟩ := hden
  rw [hname] at n1 n2 n3
  simp only [fixesOf, List.mem_filterMap, List.mem_filter, decide_eq_true_eq] at hed
  obtain ⟨q, ⟨hq, hqn⟩, hqz⟩ := hed
  refine ⟨r, hen, hlname, n3 r hen rfl, by rw [hlname]; exact n1, ?_, ?_, z, (C53_looked_at p z).1 hv, q, hq, hqn, ed, hqz, ?_, hlrange.trans rfl, hfix.trans hsame⟩
  · intro l hl
    rw [hlname]
    exact Decidable.of_not_not (n2 l hl)
  · rw [hlrange, ← hidden_at hname]; exact hhid
  · simpa [fixDiag, Diagnostic.new, textFix] using n4

theorem inOrder_error {α β ε : Type} {f : α → Except ε (List β)} {e : ε} : ∀ {xs : List α}, inOrder f xs = .error e → ∃ x ∈ xs, f x = .error e := by
  intro xs
  induction xs with
  | nil => intro h; cases h
  | cons x xs ih =>
    intro h
    rw [inOrder] at h
    split at h
    · rename_i e' he; cases h; exact ⟨x, by simp, he⟩
    · split at h
      · rename_i e' he
        cases h
        obtain ⟨a, ha, h⟩ := ih he
        exact ⟨a, List.mem_cons_of_mem _ ha, h⟩
      · cases h

theorem callRule_error {W : Wording} {want : Op} {src : Src} {n : Str} {v : Look} {e : RuleFail} (h : callRule W want src n v = .error e) : ∃ z, v = .node z ∧ ruleOf W.opts n z = .error e := by
  cases v with
  | loopVar z => cases h
  | node z =>
    rw [callRule] at h
    split at h
    · rename_i hs; cases h; exact ⟨z, rfl, hs⟩
    · cases h
    · split at h
      · split at h <;> cases h
      · cases h

theorem checkExpressions_error {W : Wording} {inp : LintInput} {src : Src} {p : Node} {e : CheckErr} (hw : WF .top p) (h : checkExpressions W inp src p = .error e) :
    ∃ r ∈ inp.ruleSet, ∃ z f, LookedAt p z ∧ Fails r.name z.e f ∧ e = failSeen f := by
  have key : ∀ f, inOrder (fun v => inOrder (fun n => callRule W inp.assignment.op src n v) ((rulesAt v).filter (fun n => inp.ruleSet.any (fun r => r.name = n)))) (visits p) = .error f →
      ∃ r ∈ inp.ruleSet, ∃ z, LookedAt p z ∧ Fails r.name z.e f := by
    intro f hf
    obtain ⟨v, hv, hf⟩ := inOrder_error hf
    obtain ⟨n, hn, hf⟩ := inOrder_error hf
    obtain ⟨z, rfl, hfail⟩ := callRule_error hf
    obtain ⟨_, hn⟩ := List.mem_filter.1 hn
    obtain ⟨r, hr, hrn⟩ := List.any_eq_true.1 hn
    simp only [decide_eq_true_eq] at hrn
    subst hrn
    have hz := (C53_looked_at p z).1 hv
    have hwz : WF (modeAt z.fs) z.e := WF_plug (show WF .top (plug z.fs z.e) from (show plug z.fs z.e = p from hz.1) ▸ hw)
    exact ⟨r, hr, z, hz, (C56_rule_fails hwz).1 hfail⟩
  unfold checkExpressions at h
  split at h
  · cases h
  · rename_i hf; cases h
    obtain ⟨r, hr, z, hz, hfa⟩ := key _ hf
    exact ⟨r, hr, z, _, hz, hfa, rfl⟩
  · rename_i hf; cases h
    obtain ⟨r, hr, z, hz, hfa⟩ := key _ hf
    exact ⟨r, hr, z, _, hz, hfa, rfl⟩

theorem locations_error {nl : List Nat} : ∀ {ds : List Diagnostic} {e : CheckErr}, computeLocations nl ds = .error e → ∃ n, findRowCol n nl = none := by
  intro ds
  induction ds with
  | nil => intro e h; cases h
  | cons d ds ih =>
    intro e h
    rw [computeLocations] at h
    split at h
    · rename_i hn; exact ⟨_, hn⟩
    · cases hc : computeLocations nl ds with
      | error e' => exact ih hc
      | ok r => rw [hc] at h; cases h

/-- **C80** (failures). When the check of an R file that R can read fails, then an enabled rule gives up on some code in it, in the way C56 says; or else it is not the code but one of: the
suppression comments (C12), the analysis of unreachable code, and the position of a report (C16). -/
theorem C80_failures {W : Wording} {L : Lints} (hL : RunsRules W L) {pkg : PackageAnalysis} {cfg : Config} {file contents : Str} {e : CheckErr} (hr : hasRmdExtension file = false)
    (h : getChecks L pkg cfg file contents = .error e) {pr : Parsed} (hp : L.parse contents = some pr) {src : Src} {p : Node} (hread : ReadsAs contents src p) :
    (∃ r ∈ cfg.rulesToApply, ∃ z f, LookedAt p z ∧ Fails r.name z.e f ∧ e = failSeen f) ∨ fromNode pr.root contents = none ∨ (∃ e', L.unreachable cfg.lintInput contents = .error e') ∨
      pr.listText = none ∨ ∃ t n, pr.listText = some t ∧ findRowCol n (findNewLines t) = none := by
  unfold getChecks at h
  rw [hr] at h
  simp only [Bool.false_eq_true, if_false] at h
  unfold getChecksR checkerDiagnostics at h
  rw [hp] at h
  simp only at h
  cases hm : fromNode pr.root contents with
  | none => exact .inr (.inl rfl)
  | some m =>
    rw [hm] at h
    simp only at h
    unfold runChecker at h
    rw [hL _ _ _ _ hread] at h
    cases hx : checkExpressions W cfg.lintInput src p with
    | error e' =>
      rw [hx] at h
      cases h
      exact .inl (checkExpressions_error hread.2.2.1 hx)
    | ok exprs =>
      rw [hx] at h
      cases hu : unreachableDiags L cfg.lintInput contents with
      | error e' =>
        unfold unreachableDiags at hu
        split at hu
        · exact .inr (.inr (.inl ⟨_, hu⟩))
        · cases hu
      | ok un =>
        rw [hu] at h
        cases ht : pr.listText with
        | none => exact .inr (.inr (.inr (.inl rfl)))
        | some t =>
          simp only [ht, bind, Except.bind, pure, Except.pure] at h
          obtain ⟨n, hn⟩ := locations_error h
          exact .inr (.inr (.inr (.inr ⟨t, n, rfl, hn⟩)))

end Jarl
