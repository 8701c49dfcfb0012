import Verif.Props.RReportsCond
import Verif.Props.RReportsPlaces
import Verif.Props.RReportsCalls
import Verif.Props.RVisitMore
/-!
# C55: what is reported for a whole file; C56: which files are refused
-/
namespace Jarl
open Spec

/-! ## The rules are called where they have something to say -/

/-- A rule says something, or fails, only where it is called. -/
def SaysWhere (q : Str × (Zip → Except RuleFail (Option Said))) : Prop := ∀ z, q.2 z ≠ .ok none → q.1 ∈ rulesAt (.node z)

theorem says_call {n : Str} {r : Zip → Except RuleFail (Option Said)} (h : ∀ z, asCall z.e = none → r z = .ok none) (hn : n ∈ callRules) : SaysWhere (n, r) := by
  intro z hz
  cases hc : asCall z.e with
  | none => exact absurd (h z hc) hz
  | some q =>
    obtain ⟨g, g2, he⟩ := asCall_iff.mp (show asCall z.e = some (q.1, q.2) from hc)
    simpa [rulesAt, he] using hn

theorem says_bin {n : Str} {r : Zip → Except RuleFail (Option Said)} (h : ∀ z, asBin z.e = none → r z = .ok none) (hn : n ∈ binaryRules) : SaysWhere (n, r) := by
  intro z hz
  cases hc : asBin z.e with
  | none => exact absurd (h z hc) hz
  | some q =>
    unfold asBin at hc
    split at hc
    next l g o r he => simpa [rulesAt, he] using hn
    next => cases hc

theorem rules_say (o : ROpts) : ∀ q ∈ sayRules o ++ failRules, SaysWhere q := by
  simp only [sayRules, failRules, List.cons_append, List.nil_append, List.forall_mem_cons, List.not_mem_nil, false_imp_iff, implies_true, and_true]
  refine ⟨?_, ?_, ?_, ?_, ?_, ?_, ?_, ?_, ?_, ?_, ?_, ?_, ?_, ?_⟩
  · exact says_call (fun z h => by simp [browserRule, h]) (by decide)
  · exact says_call (fun z h => by simp [downloadFile, h]) (by decide)
  · exact says_call (fun z h => by simp [duplicatedArguments, h]) (by decide)
  · exact says_bin (fun z h => by simp [emptyAssignment, h]) (by decide)
  · exact says_bin (fun z h => by simp [vectorLogic, h]) (by decide)
  · exact says_bin (fun z h => by simp [implicitAssignment, h]) (by decide)
  · intro z hz
    simp only [internalFunction] at hz
    split at hz
    next he => simp [rulesAt, he]
    next => exact absurd rfl hz
  · exact says_call (fun z h => by simp [undesirableFunction, h]) (by decide)
  · intro z hz
    simp only [forLoopIndex] at hz
    split at hz
    next he => simp [rulesAt, he]
    next => exact absurd rfl hz
  · intro z hz
    simp only [forLoopDupIndex] at hz
    split at hz
    next he => simp [rulesAt, he]
    next => exact absurd rfl hz
  · intro z hz
    simp only [ifAlwaysTrue] at hz
    split at hz
    next he => simp [rulesAt, he]
    next => exact absurd rfl hz
  · exact says_call (fun z h => by simp [orFail, lengthsFails, h]) (by decide)
  · exact says_call (fun z h => by simp [orFail, lengthTestFails, h]) (by decide)
  · exact says_call (fun z h => by simp [orFail, sampleIntFails, h]) (by decide)

/-- What a rule has to say, it is asked for. -/
theorem ruleOf_called {o n z} (h : ruleOf o n z ≠ .ok none) : n ∈ rulesAt (.node z) := by
  rw [ruleOf] at h
  split at h
  next q hq =>
    have hn : q.1 = n := by simpa using List.find?_some hq
    exact hn ▸ rules_say o q (List.mem_of_find?_eq_some hq) z h
  next => exact absurd rfl h

/-! ## The whole file -/

theorem runRules_error {o z ns e} (h : runRules o z ns = .error e) : ∃ pre n post, ns = pre ++ n :: post ∧ ruleOf o n z = .error e ∧ ∀ m ∈ pre, ∃ s, ruleOf o m z = .ok s := by
  induction ns with
  | nil => cases h
  | cons n ns ih =>
    rw [runRules] at h
    split at h
    next e' he => injection h with h; subst h; exact ⟨[], n, ns, rfl, he, by simp⟩
    next s hs =>
      split at h
      next e' he =>
        injection h with h; subst h
        obtain ⟨pre, m, post, h1, h2, h3⟩ := ih he
        exact ⟨n :: pre, m, post, by rw [h1]; rfl, h2, by
          intro k hk
          rcases List.mem_cons.mp hk with rfl | hk
          · exact ⟨s, hs⟩
          · exact h3 k hk⟩
      next => cases h

theorem runRules_ok {o z ns ds} (h : runRules o z ns = .ok ds) :
    (∀ n ∈ ns, ∃ s, ruleOf o n z = .ok s) ∧ ∀ d, d ∈ ds ↔ d.z = z ∧ d.rule ∈ ns ∧ ruleOf o d.rule z = .ok (some d.said) := by
  induction ns generalizing ds with
  | nil => injection h with h; subst h; simp
  | cons n ns ih =>
    rw [runRules] at h
    split at h
    next => cases h
    next s hs =>
      split at h
      next => cases h
      next rest hr =>
        obtain ⟨i1, i2⟩ := ih hr
        injection h with h
        refine ⟨?_, fun d => ?_⟩
        · intro m hm
          rcases List.mem_cons.mp hm with rfl | hm
          · exact ⟨s, hs⟩
          · exact i1 m hm
        · subst h
          cases s with
          | none =>
            simp only [i2 d, List.mem_cons]
            constructor
            · rintro ⟨h1, h2, h3⟩; exact ⟨h1, Or.inr h2, h3⟩
            · rintro ⟨h1, rfl | h2, h3⟩
              · rw [hs] at h3; cases h3
              · exact ⟨h1, h2, h3⟩
          | some s =>
            simp only [List.mem_cons, i2 d]
            constructor
            · rintro (rfl | ⟨h1, h2, h3⟩)
              · exact ⟨rfl, Or.inl rfl, hs⟩
              · exact ⟨h1, Or.inr h2, h3⟩
            · rintro ⟨h1, h2 | h2, h3⟩
              · left
                obtain ⟨r, z', s'⟩ := d
                simp only at h1 h2 h3
                subst h1 h2
                rw [hs] at h3
                injection h3 with h3; injection h3 with h3; rw [h3]
              · exact Or.inr ⟨h1, h2, h3⟩

theorem runLooks_ok {en o vs ds} (h : runLooks en o vs = .ok ds) :
    (∀ z, Look.node z ∈ vs → ∀ n ∈ rulesAt (.node z), en n = true → ∃ s, ruleOf o n z = .ok s) ∧
    ∀ d, d ∈ ds ↔ Look.node d.z ∈ vs ∧ d.rule ∈ rulesAt (.node d.z) ∧ en d.rule = true ∧ ruleOf o d.rule d.z = .ok (some d.said) := by
  induction vs generalizing ds with
  | nil => injection h with h; subst h; simp
  | cons v vs ih =>
    cases v with
    | loopVar z =>
      rw [runLooks] at h
      obtain ⟨i1, i2⟩ := ih h
      refine ⟨fun z hz => i1 z (by simpa using hz), fun d => ?_⟩
      rw [i2 d]; simp
    | node z =>
      rw [runLooks] at h
      split at h
      next => cases h
      next ds1 h1 =>
        split at h
        next => cases h
        next rest hr =>
          injection h with h
          obtain ⟨i1, i2⟩ := ih hr
          obtain ⟨j1, j2⟩ := runRules_ok h1
          refine ⟨fun z' hz n hn he => ?_, fun d => ?_⟩
          · rcases List.mem_cons.mp hz with hz | hz
            · injection hz with hz; subst hz; exact j1 n (List.mem_filter.mpr ⟨hn, he⟩)
            · exact i1 z' hz n hn he
          · subst h
            simp only [List.mem_append, j2 d, i2 d, List.mem_cons, List.mem_filter]
            constructor
            · rintro (⟨h1, ⟨h2, h3⟩, h4⟩ | ⟨h1, h2, h3, h4⟩)
              · subst h1; exact ⟨Or.inl rfl, h2, h3, h4⟩
              · exact ⟨Or.inr h1, h2, h3, h4⟩
            · rintro ⟨h1 | h1, h2, h3, h4⟩
              · injection h1 with h1
                exact Or.inl ⟨h1, ⟨h1 ▸ h2, h3⟩, h1 ▸ h4⟩
              · exact Or.inr ⟨h1, h2, h3, h4⟩

theorem runLooks_error {en o vs e} (h : runLooks en o vs = .error e) :
    ∃ pre z post, vs = pre ++ Look.node z :: post ∧
      (∃ before n after, (rulesAt (.node z)).filter en = before ++ n :: after ∧ ruleOf o n z = .error e ∧ ∀ m ∈ before, ∃ s, ruleOf o m z = .ok s) ∧
      ∀ z', Look.node z' ∈ pre → ∀ m ∈ rulesAt (.node z'), en m = true → ∃ s, ruleOf o m z' = .ok s := by
  induction vs with
  | nil => cases h
  | cons v vs ih =>
    cases v with
    | loopVar z =>
      rw [runLooks] at h
      obtain ⟨pre, z', post, h1, h2, h3⟩ := ih h
      exact ⟨_ :: pre, z', post, by rw [h1]; rfl, h2, fun z hz => h3 z (by simpa using hz)⟩
    | node z =>
      rw [runLooks] at h
      split at h
      next e' he =>
        injection h with h; subst h
        exact ⟨[], z, vs, rfl, runRules_error he, by simp⟩
      next ds1 h1 =>
        split at h
        next e' he =>
          injection h with h; subst h
          obtain ⟨pre, z', post, i1, i2, i3⟩ := ih he
          refine ⟨_ :: pre, z', post, by rw [i1]; rfl, i2, fun z2 hz m hm hen => ?_⟩
          rcases List.mem_cons.mp hz with hz | hz
          · injection hz with hz; subst hz
            exact (runRules_ok h1).1 m (List.mem_filter.mpr ⟨hm, hen⟩)
          · exact i3 z2 hz m hm hen
        next => cases h

theorem not_ok_none {e : RuleFail} {s : Option Said} {x : Except RuleFail (Option Said)} (h : x = .error e ∨ x = .ok s ∧ s ≠ none) : x ≠ .ok none := by
  rintro rfl
  rcases h with h | ⟨h, h'⟩
  · cases h
  · injection h with h; exact h' h.symm

/-- If the check of a file goes through, the reports are exactly what the enabled rules say about the code they look at (`C53_looked_at`). -/
theorem C55_reports {en o p ds} (h : checkNodes en o p = .ok ds) (d : Note) :
    d ∈ ds ↔ LookedAt p d.z ∧ en d.rule = true ∧ ruleOf o d.rule d.z = .ok (some d.said) := by
  rw [(runLooks_ok h).2 d, C53_looked_at]
  constructor
  · rintro ⟨h1, _, h3, h4⟩; exact ⟨h1, h3, h4⟩
  · rintro ⟨h1, h3, h4⟩; exact ⟨h1, ruleOf_called (by rw [h4]; simp), h3, h4⟩

/-- The rules by name. -/
theorem C55_rule_table (o : ROpts) (z : Zip) :
    ruleOf o (cs! "browser") z = .ok (browserRule z) ∧ ruleOf o (cs! "download_file") z = .ok (downloadFile z) ∧
    ruleOf o (cs! "duplicated_arguments") z = duplicatedArguments o.dupSkipped z ∧ ruleOf o (cs! "empty_assignment") z = .ok (emptyAssignment z) ∧
    ruleOf o (cs! "vector_logic") z = .ok (vectorLogic z) ∧ ruleOf o (cs! "implicit_assignment") z = .ok (implicitAssignment o.implicitSkipped z) ∧
    ruleOf o (cs! "internal_function") z = .ok (internalFunction z) ∧ ruleOf o (cs! "undesirable_function") z = .ok (undesirableFunction o.undesirable z) ∧
    ruleOf o (cs! "for_loop_index") z = .ok (forLoopIndex z) ∧ ruleOf o (cs! "for_loop_dup_index") z = .ok (forLoopDupIndex z) ∧
    ruleOf o (cs! "if_always_true") z = ifAlwaysTrue z :=
  ⟨rfl, rfl, rfl, rfl, rfl, rfl, rfl, rfl, rfl, rfl, rfl⟩

/-! ## Failures -/

theorem callee_none {md f} (he : isExpr f = true) (hw : WF md f) (hr : postfixBp < rp f) :
    dupCallee f = none ↔ ∃ g k s, f = .atom g k s ∧ k ∈ [AKind.true, .false, .null, .na, .nan, .inf, .dots, .break, .next] := by
  cases f with
  | atom g k s =>
    constructor
    · intro h
      refine ⟨g, k, s, rfl, ?_⟩
      cases k <;> first | (cases h; done) | decide
    · rintro ⟨_, _, _, h, hk⟩
      cases h
      cases k <;> first | rfl | simp at hk
  | paren g e g2 => simp [dupCallee]
  | braces g e g2 => simp [dupCallee]
  | ext => simp [dupCallee]
  | call f g b args g2 => cases b <;> simp [dupCallee]
  | un g o e =>
    exfalso
    simp only [WF] at hw
    obtain ⟨k, hk, _⟩ := hw.2.2
    simp only [rp, hk, Option.getD_some, postfixBp] at hr
    have : k ≤ 18 := by
      revert hk; cases o <;> simp [unLevel] <;> omega
    omega
  | bin l g o r =>
    exfalso
    simp only [rp, postfixBp] at hr
    have : follow o ≤ 36 := by
      cases o <;> simp [follow, rbp, level, rightAssoc, nonAssoc]
    omega
  | func => simp only [rp, postfixBp, bodyBp] at hr; omega
  | ifE => simp only [rp, postfixBp, bodyBp] at hr; omega
  | ifElse => simp only [rp, postfixBp, bodyBp] at hr; omega
  | whileE => simp only [rp, postfixBp, bodyBp] at hr; omega
  | forE => simp only [rp, postfixBp, bodyBp] at hr; omega
  | repE => simp only [rp, postfixBp, bodyBp] at hr; omega
  | _ => cases he

theorem plug_app (a b : List Frame) (e : Node) : plug (a ++ b) e = plug b (plug a e) := by
  induction a generalizing e with
  | nil => rfl
  | cons f a ih => exact ih _

theorem unreadable_int {g s} : Unreadable (.atom g .int s) ↔ parseI64 (stripL s) = none := by
  constructor
  · rintro (⟨g', s', h, hn⟩ | ⟨_, _, h, _⟩)
    · cases h
      cases hp : parseI64 (stripL s) with
      | none => rfl
      | some n =>
        obtain ⟨h1, h2, h3, h4⟩ := parseI64_iff.mp hp
        exact absurd ⟨_, h2, h1, stripL_cases s, h3 ▸ h4⟩ hn
    · cases h
  · intro h
    refine Or.inl ⟨g, s, rfl, ?_⟩
    rintro ⟨ds, hd, hne, hs, hle⟩
    have : stripL s = ds := by
      rcases hs with rfl | rfl
      · exact stripL_digits hd
      · exact stripL_L ds
    rw [this, parseI64_iff.mpr ⟨hne, hd, rfl, hle⟩] at h
    cases h

theorem unreadable_double {g s} : Unreadable (.atom g .double s) ↔ parseF64 (if s.head? = some '.' then '0' :: s else s) = none := by
  constructor
  · rintro (⟨_, _, h, _⟩ | ⟨g', s', h, hn⟩)
    · cases h
    · cases h
      cases hp : parseF64 (if s.head? = some '.' then '0' :: s else s) with
      | none => rfl
      | some b => exact absurd (doubleLit_iff.mpr hp) (hn b)
  · intro h
    exact Or.inr ⟨g, s, rfl, fun b hb => by rw [doubleLit_iff.mp hb] at h; cases h⟩

/-- A number that cannot be read somewhere in a condition. -/
def BadNumber (c : Node) : Prop := ∃ fs x, CondPath fs ∧ c = plug fs x ∧ Unreadable x

theorem badNumber_up {fs x} {f : Frame} (h : CondPath fs) (hf : (∃ g g2, f = .paren g g2) ∨ (∃ g o, f = .un g o ∧ o ∈ [Op.bang, .plus, .minus]) ∨
    (∃ g o r, f = .binL g o r ∧ o ∈ [Op.or, .or2, .and, .and2]) ∨ ∃ l g o, f = .binR l g o ∧ o ∈ [Op.or, .or2, .and, .and2]) (hx : Unreadable x) :
    BadNumber (f.fill (plug fs x)) := by
  refine ⟨fs ++ [f], x, ?_, by rw [plug_app]; rfl, hx⟩
  intro f' hf'
  rcases List.mem_append.mp hf' with hf' | hf'
  · exact h f' hf'
  · cases List.mem_singleton.mp hf'; exact hf

theorem badNumber_down {c} (h : BadNumber c) : Unreadable c ∨ ∃ (f : Frame) (c' : Node), c = f.fill c' ∧ BadNumber c' ∧
    ((∃ g g2, f = .paren g g2) ∨ (∃ g o, f = .un g o ∧ o ∈ [Op.bang, .plus, .minus]) ∨
    (∃ g o r, f = .binL g o r ∧ o ∈ [Op.or, .or2, .and, .and2]) ∨ ∃ l g o, f = .binR l g o ∧ o ∈ [Op.or, .or2, .and, .and2]) := by
  obtain ⟨fs, x, hp, rfl, hx⟩ := h
  rcases List.eq_nil_or_concat fs with rfl | ⟨fs, f, rfl⟩
  · exact Or.inl hx
  · rw [List.concat_eq_append] at hp ⊢
    exact Or.inr ⟨f, plug fs x, by rw [plug_app]; rfl, ⟨fs, x, fun f' hf' => hp f' (List.mem_append_left _ hf'), rfl, hx⟩, hp f (by simp)⟩

theorem unreadable_atom {x} (h : Unreadable x) : ∃ g k s, x = .atom g k s ∧ (k = .int ∨ k = .double) := by
  rcases h with ⟨g, s, rfl, _⟩ | ⟨g, s, rfl, _⟩
  · exact ⟨_, _, _, rfl, Or.inl rfl⟩
  · exact ⟨_, _, _, rfl, Or.inr rfl⟩

theorem badNumber_atom {g k s} : BadNumber (.atom g k s) ↔ Unreadable (.atom g k s) := by
  constructor
  · intro h
    rcases badNumber_down h with h | ⟨f, c', h, _, hf⟩
    · exact h
    · rcases hf with ⟨_, _, rfl⟩ | ⟨_, _, rfl, _⟩ | ⟨_, _, _, rfl, _⟩ | ⟨_, _, _, rfl, _⟩ <;> cases h
  · exact fun h => ⟨[], _, by simp [CondPath], rfl, h⟩

theorem badNumber_paren {g e g2} : BadNumber (.paren g e g2) ↔ BadNumber e := by
  constructor
  · intro h
    rcases badNumber_down h with h | ⟨f, c', h, hb, hf⟩
    · obtain ⟨_, _, _, h, _⟩ := unreadable_atom h; cases h
    · rcases hf with ⟨_, _, rfl⟩ | ⟨_, _, rfl, _⟩ | ⟨_, _, _, rfl, _⟩ | ⟨_, _, _, rfl, _⟩ <;> cases h
      exact hb
  · rintro ⟨fs, x, hp, rfl, hx⟩
    exact badNumber_up (f := .paren g g2) hp (Or.inl ⟨_, _, rfl⟩) hx

theorem badNumber_un {g o e} : BadNumber (.un g o e) ↔ o ∈ [Op.bang, .plus, .minus] ∧ BadNumber e := by
  constructor
  · intro h
    rcases badNumber_down h with h | ⟨f, c', h, hb, hf⟩
    · obtain ⟨_, _, _, h, _⟩ := unreadable_atom h; cases h
    · rcases hf with ⟨_, _, rfl⟩ | ⟨_, _, rfl, ho⟩ | ⟨_, _, _, rfl, _⟩ | ⟨_, _, _, rfl, _⟩ <;> cases h
      exact ⟨ho, hb⟩
  · rintro ⟨ho, fs, x, hp, rfl, hx⟩
    exact badNumber_up (f := .un g o) hp (Or.inr (Or.inl ⟨_, _, rfl, ho⟩)) hx

theorem badNumber_bin {l g o r} : BadNumber (.bin l g o r) ↔ o ∈ [Op.or, .or2, .and, .and2] ∧ (BadNumber l ∨ BadNumber r) := by
  constructor
  · intro h
    rcases badNumber_down h with h | ⟨f, c', h, hb, hf⟩
    · obtain ⟨_, _, _, h, _⟩ := unreadable_atom h; cases h
    · rcases hf with ⟨_, _, rfl⟩ | ⟨_, _, rfl, ho⟩ | ⟨_, _, _, rfl, ho⟩ | ⟨_, _, _, rfl, ho⟩ <;> cases h
      · exact ⟨ho, Or.inl hb⟩
      · exact ⟨ho, Or.inr hb⟩
  · rintro ⟨ho, ⟨fs, x, hp, rfl, hx⟩ | ⟨fs, x, hp, rfl, hx⟩⟩
    · exact badNumber_up (f := .binL g o r) hp (Or.inr (Or.inr (Or.inl ⟨_, _, _, rfl, ho⟩))) hx
    · exact badNumber_up (f := .binR l g o) hp (Or.inr (Or.inr (Or.inr ⟨_, _, _, rfl, ho⟩))) hx

theorem badNumber_other {c} (h : BadNumber c) : (∃ g k s, c = .atom g k s) ∨ (∃ g e g2, c = .paren g e g2) ∨ (∃ g o e, c = .un g o e) ∨ ∃ l g o r, c = .bin l g o r := by
  rcases badNumber_down h with h | ⟨f, c', h, hb, hf⟩
  · obtain ⟨_, _, _, rfl, _⟩ := unreadable_atom h; exact Or.inl ⟨_, _, _, rfl⟩
  · rcases hf with ⟨_, _, rfl⟩ | ⟨_, _, rfl, _⟩ | ⟨_, _, _, rfl, _⟩ | ⟨_, _, _, rfl, _⟩ <;> subst h
    · exact Or.inr (Or.inl ⟨_, _, _, rfl⟩)
    · exact Or.inr (Or.inr (Or.inl ⟨_, _, _, rfl⟩))
    · exact Or.inr (Or.inr (Or.inr ⟨_, _, _, _, rfl⟩))
    · exact Or.inr (Or.inr (Or.inr ⟨_, _, _, _, rfl⟩))

theorem except_map_error {α β : Type} {f : α → β} {x : Except RuleFail α} {e} : x.map f = .error e ↔ x = .error e := by
  cases x <;> simp [Except.map]

theorem except_bind_error {α β : Type} {f : α → Except RuleFail β} {x : Except RuleFail α} {e} : (x >>= f) = .error e ↔ x = .error e ∨ ∃ a, x = .ok a ∧ f a = .error e := by
  cases x <;> simp [bind, Except.bind]

theorem condConst_error {c e} : condConst c = .error e ↔ e = .error ∧ BadNumber c := by
  induction c generalizing e with
  | atom g k s =>
    rw [badNumber_atom]
    have hno : k ≠ .int → k ≠ .double → ¬ Unreadable (.atom g k s) := by
      intro h1 h2 h
      obtain ⟨_, _, _, h, hk⟩ := unreadable_atom h
      cases h
      rcases hk with rfl | rfl
      · exact h1 rfl
      · exact h2 rfl
    cases k with
    | int =>
      rw [unreadable_int]
      cases hp : parseI64 (stripL s) <;> simp [condConst, hp, eq_comm]
    | double =>
      rw [unreadable_double]
      cases hp : parseF64 (if s.head? = some '.' then '0' :: s else s) <;> simp only [condConst, hp] <;> simp [eq_comm]
    | _ => simp [condConst, hno]
  | paren g e' g2 ih => rw [badNumber_paren, condConst, ih]
  | un g o e' ih =>
    rw [badNumber_un, condConst]
    split
    next h => subst h; rw [except_map_error, ih]; simp
    next h1 =>
      split
      next h => rw [ih]; rcases h with rfl | rfl <;> simp
      next h2 => simp only [not_or] at h2; simp [h1, h2]
  | bin l g o r ihl ihr =>
    rw [badNumber_bin, condConst]
    have key : ∀ (f : Option Bool → Option Bool → Option Bool) , ((do
        let a ← condConst l
        let b ← condConst r
        Except.ok (f a b)) = Except.error e) ↔ e = .error ∧ (BadNumber l ∨ BadNumber r) := by
      intro f
      rw [except_bind_error, ihl]
      simp only [except_bind_error, ihr]
      constructor
      · rintro (⟨h1, h2⟩ | ⟨a, ha, ⟨h1, h2⟩ | ⟨b, _, h⟩⟩)
        · exact ⟨h1, Or.inl h2⟩
        · exact ⟨h1, Or.inr h2⟩
        · cases h
      · rintro ⟨h1, h2⟩
        cases ha : condConst l with
        | error e' => 
          obtain ⟨i1, i2⟩ := ihl.mp ha
          exact Or.inl ⟨h1, i2⟩
        | ok a =>
          rcases h2 with h2 | h2
          · exact Or.inl ⟨h1, h2⟩
          · exact Or.inr ⟨a, rfl, Or.inl ⟨h1, h2⟩⟩
    split
    next h => rw [key]; rcases h with rfl | rfl <;> simp
    next h1 =>
      split
      next h => rw [key]; rcases h with rfl | rfl <;> simp
      next h2 => simp only [not_or] at h1 h2; simp [h1, h2]
  | _ =>
    simp only [condConst]
    constructor
    · intro h; cases h
    · rintro ⟨_, h⟩
      rcases badNumber_other h with ⟨_, _, _, h⟩ | ⟨_, _, _, h⟩ | ⟨_, _, _, h⟩ | ⟨_, _, _, _, h⟩ <;> cases h

theorem given_argBy (as : List Node) (n : Str) (pos : Nat) : givenArg as n pos = argBy as n pos := by
  unfold givenArg argBy
  have h1 : (as.filter (fun a => decide (nameOf a = some n)))[0]? = argByName as n := by
    rw [← List.head?_eq_getElem?, List.head?_filter]
    unfold argByName; congr 1
  have h2 : as.filter (fun a => (nameOf a).isNone) = unnamedArgs as := by unfold unnamedArgs; congr 1
  rw [h1, h2]
  cases argByName as n <;> rfl

theorem argBy_first_none {as : List Node} {n : Str} : argBy as n 0 = none ↔ ∀ a ∈ as, ∃ m, nameOf a = some m ∧ m ≠ n := by
  rw [← given_argBy, givenArg, Option.or_eq_none_iff]
  simp only [← List.head?_eq_getElem?, List.head?_eq_none_iff, List.filter_eq_nil_iff]
  constructor
  · rintro ⟨h1, h2⟩ a ha
    have h1 := h1 a ha
    have h2 := h2 a ha
    cases hn : nameOf a with
    | none => simp [hn] at h2
    | some m => exact ⟨m, rfl, fun h => h1 (by simp [hn, h])⟩
  · intro h
    refine ⟨fun a ha => ?_, fun a ha => ?_⟩
    · obtain ⟨m, h1, h2⟩ := h a ha; simp [h1, h2]
    · obtain ⟨m, h1, h2⟩ := h a ha; simp [h1]

theorem textIs_iff {s : Str} {v : Node} : textIs s v = true ↔ ∃ g k, v = .atom g k s ∧ ∀ pkg i, k ≠ .ns pkg i := by
  cases v with
  | atom g k t =>
    constructor
    · intro h
      cases k <;> simp only [textIs, decide_eq_true_eq, Bool.false_eq_true] at h <;> exact ⟨_, _, by rw [h], by simp⟩
    · rintro ⟨_, _, h, hk⟩
      cases h
      cases k <;> first | exact absurd rfl (hk _ _) | simp [textIs]
  | _ => simp [textIs]

theorem orFail_error {f : Zip → Option RuleFail} {z e} : orFail f z = .error e ↔ f z = some e := by
  unfold orFail; cases f z <;> simp

/-- Exactly this code makes a rule fail. -/
theorem C56_rule_fails {o n md} {z : Zip} {e} (hw : WF md z.e) : ruleOf o n z = .error e ↔ Fails n z.e e := by
  have hargs : ∀ {f g args g2}, z.e = .call f g .par args g2 → ∀ a ∈ items args, argValue a = valueOf a := by
    intro f g args g2 he a ha
    rw [he] at hw
    simp only [WF] at hw
    exact argValue_valueOf (items_ok hw.2.2.2.2.1 hw.2.2.2.2.2.1 hw.2.2.2.2.2.2 a ha).arg
  constructor
  · intro h
    rw [ruleOf] at h
    split at h
    next q hq =>
      have hn : q.1 = n := by simpa using List.find?_some hq
      have hm := List.mem_of_find?_eq_some hq
      clear hq
      simp only [sayRules, failRules, List.cons_append, List.nil_append, List.mem_cons, List.not_mem_nil, or_false] at hm
      rcases hm with rfl | rfl | rfl | rfl | rfl | rfl | rfl | rfl | rfl | rfl | rfl | rfl | rfl | rfl <;> subst hn <;> simp only at h <;> try (cases h; done)
      · simp only [duplicatedArguments] at h
        split at h
        next => cases h
        next f args hc =>
          obtain ⟨g, g2, he⟩ := asCall_iff.mp hc
          split at h
          next hd =>
            injection h with h; subst h
            rw [he] at hw
            simp only [WF] at hw
            obtain ⟨g', k, s, rfl, hk⟩ := (callee_none hw.1 hw.2.1 hw.2.2.2.1).mp hd
            exact Fails.callee he hk
          next =>
            split at h <;> cases h
      · simp only [ifAlwaysTrue] at h
        split at h
        next g g2 c g3 t he =>
          obtain ⟨rfl, fs, x, hp, rfl, hx⟩ := condConst_error.mp (except_map_error.mp h)
          exact Fails.condition he hp rfl hx
        next => cases h
      · rw [orFail_error, lengthsFails] at h
        obtain ⟨⟨f, args⟩, hc, h⟩ := Option.bind_eq_some_iff.mp h
        obtain ⟨g, g2, he⟩ := asCall_iff.mp hc
        obtain ⟨hf, h⟩ := guard_bind.mp h
        obtain ⟨a, ha, h⟩ := Option.bind_eq_some_iff.mp h
        have hv := hargs he a (argBy_mem ha)
        rw [← given_argBy] at ha
        split at h
        next hn => injection h with h; subst h; exact Fails.lengthsEmpty he hf ha (hv ▸ hn)
        next v hn =>
          split at h
          next ht =>
            injection h with h; subst h
            rw [Bool.and_eq_true, textIs_iff] at ht
            obtain ⟨⟨g3, k, rfl, hk⟩, hx⟩ := ht
            exact Fails.lengthsX he hf ha (hv ▸ hn) hk (argBy_first_none.mp (Option.isNone_iff_eq_none.mp hx))
          next => cases h
      · rw [orFail_error, lengthTestFails] at h
        obtain ⟨⟨f, args⟩, hc, h⟩ := Option.bind_eq_some_iff.mp h
        obtain ⟨g, g2, he⟩ := asCall_iff.mp hc
        obtain ⟨hf, h⟩ := guard_bind.mp h
        obtain ⟨a, ha, h⟩ := Option.bind_eq_some_iff.mp h
        split at h
        next hn =>
          injection h with h; subst h
          obtain ⟨as, has⟩ := List.head?_eq_some_iff.mp ha
          exact Fails.lengthTest he hf has (hargs he a (has ▸ List.mem_cons_self) ▸ Option.isNone_iff_eq_none.mp hn)
        next => cases h
      · rw [orFail_error, sampleIntFails] at h
        obtain ⟨⟨f, args⟩, hc, h⟩ := Option.bind_eq_some_iff.mp h
        obtain ⟨g, g2, he⟩ := asCall_iff.mp hc
        obtain ⟨hf, h⟩ := guard_bind.mp h
        obtain ⟨a, ha, h⟩ := Option.bind_eq_some_iff.mp h
        split at h
        next hn =>
          injection h with h; subst h
          exact Fails.sampleInt he hf (by rw [given_argBy]; exact ha) (hargs he a (argBy_mem ha) ▸ Option.isNone_iff_eq_none.mp hn)
        next => cases h
    next => cases h
  · intro h
    generalize hze : z.e = ze at h
    cases h with
    | callee he hk =>
      subst hze
      show duplicatedArguments o.dupSkipped z = _
      rw [he] at hw
      simp only [WF] at hw
      have hd := (callee_none (md := md) hw.1 hw.2.1 hw.2.2.2.1).mpr ⟨_, _, _, rfl, hk⟩
      simp only [duplicatedArguments, he, asCall, hd]
    | condition he hp hc hx =>
      subst hze
      show ifAlwaysTrue z = _
      simp only [ifAlwaysTrue, he]
      rw [except_map_error, condConst_error]
      exact ⟨rfl, _, _, hp, hc, hx⟩
    | lengthTest he hf hi hv =>
      subst hze
      show orFail lengthTestFails z = _
      rw [orFail_error, lengthTestFails, asCall_iff.mpr ⟨_, _, he⟩]
      refine guard_bind.mpr ⟨hf, ?_⟩
      have := hargs he _ (hi ▸ List.mem_cons_self)
      simp [hi, this, hv]
    | lengthsEmpty he hf ha hv =>
      subst hze
      show orFail lengthsFails z = _
      rw [given_argBy] at ha
      have := hargs he _ (argBy_mem ha)
      rw [orFail_error, lengthsFails, asCall_iff.mpr ⟨_, _, he⟩]
      refine guard_bind.mpr ⟨hf, ?_⟩
      simp [ha, this, hv]
    | lengthsX he hf ha hv hk hx =>
      subst hze
      show orFail lengthsFails z = _
      rw [given_argBy] at ha
      have := hargs he _ (argBy_mem ha)
      rw [orFail_error, lengthsFails, asCall_iff.mpr ⟨_, _, he⟩]
      refine guard_bind.mpr ⟨hf, ?_⟩
      simp [ha, this, hv, textIs_iff.mpr ⟨_, _, rfl, hk⟩, argBy_first_none.mpr hx]
    | sampleInt he hf ha hv =>
      subst hze
      show orFail sampleIntFails z = _
      rw [given_argBy] at ha
      have := hargs he _ (argBy_mem ha)
      rw [orFail_error, sampleIntFails, asCall_iff.mpr ⟨_, _, he⟩]
      refine guard_bind.mpr ⟨hf, ?_⟩
      simp [ha, this, hv]

/-- A file is refused, or ends the run, if and only if some code that the rules look at makes an enabled rule fail; suppressions do not count. -/
theorem C56_refused {en o ts p} (hp : Parses ts p) :
    (∃ e, checkNodes en o p = .error e) ↔ ∃ z n e, LookedAt p z ∧ en n = true ∧ Fails n z.e e := by
  have hw : ∀ z, LookedAt p z → WF (modeAt z.fs) z.e := fun z hz => WF_plug (show WF .top (plug z.fs z.e) from (show plug z.fs z.e = p from hz.1) ▸ hp.2.1)
  constructor
  · rintro ⟨e, h⟩
    obtain ⟨pre, z, post, hv, ⟨before, n, after, hn, hr, _⟩, _⟩ := runLooks_error h
    have hz : LookedAt p z := (C53_looked_at p z).mp (by rw [hv]; simp)
    have : n ∈ (rulesAt (.node z)).filter en := by rw [hn]; simp
    exact ⟨z, n, e, hz, (List.mem_filter.mp this).2, (C56_rule_fails (hw z hz)).mp hr⟩
  · rintro ⟨z, n, e, hz, hen, hf⟩
    have hr := (C56_rule_fails (o := o) (hw z hz)).mpr hf
    cases h : checkNodes en o p with
    | error e => exact ⟨e, rfl⟩
    | ok ds =>
      exfalso
      obtain ⟨s, hs⟩ := (runLooks_ok h).1 z ((C53_looked_at p z).mpr hz) n (ruleOf_called (by rw [hr]; simp)) hen
      rw [hr] at hs; cases hs

/-- The first failure decides: what is looked at before, and the rules called before, do not fail. -/
theorem C56_first {en o ts p e} (hp : Parses ts p) (h : checkNodes en o p = .error e) :
    ∃ pre z post before n after, visits p = pre ++ Look.node z :: post ∧ (rulesAt (.node z)).filter en = before ++ n :: after ∧ Fails n z.e e ∧
      (∀ z', Look.node z' ∈ pre → ∀ m e', en m = true → ¬ Fails m z'.e e') ∧ ∀ m ∈ before, ∀ e', ¬ Fails m z.e e' := by
  have hw : ∀ z, LookedAt p z → WF (modeAt z.fs) z.e := fun z hz => WF_plug (show WF .top (plug z.fs z.e) from (show plug z.fs z.e = p from hz.1) ▸ hp.2.1)
  obtain ⟨pre, z, post, hv, ⟨before, n, after, hn, hr, hb⟩, hpre⟩ := runLooks_error h
  have hz : ∀ z', Look.node z' ∈ pre ∨ z' = z → WF (modeAt z'.fs) z'.e := by
    intro z' hz'
    refine hw z' ((C53_looked_at p z').mp ?_)
    rw [visits] at hv ⊢
    rw [hv]
    rcases hz' with h | rfl <;> simp [*]
  refine ⟨pre, z, post, before, n, after, hv, hn, (C56_rule_fails (hz z (Or.inr rfl))).mp hr, fun z' hz' m e' hen hf => ?_, fun m hm e' hf => ?_⟩
  · have hf := (C56_rule_fails (o := o) (hz z' (Or.inl hz'))).mpr hf
    obtain ⟨s, hs⟩ := hpre z' hz' m (ruleOf_called (by rw [hf]; simp)) hen
    rw [hf] at hs; cases hs
  · have hf := (C56_rule_fails (o := o) (hz z (Or.inr rfl))).mpr hf
    obtain ⟨s, hs⟩ := hb m hm
    rw [hf] at hs; cases hs

end Jarl
