import Verif.Lemmas.Config
/-!
# Properties C01-C06: rule table and rule selection
-/

namespace Jarl

open Spec

/-! ## C01 -/

/-- C01: a string resolves to rule `r` exactly when it is the published name of `r`; in particular the
name of a rule resolves to that rule, no two rules share a name and other strings resolve to none. -/
theorem C01_rule_names (s : Str) :
    (∀ r : Rule, Rule.fromName s = some r ↔ r.name = s) ∧
    (∀ r r' : Rule, r.name = s → r'.name = s → r = r') ∧
    (Rule.fromName s = none ↔ ∀ r : Rule, r.name ≠ s) :=
  ⟨fun _ => Rule.fromName_eq_some, fun _ _ h h' => Rule.name_inj (h.trans h'.symm),
   Rule.fromName_eq_none⟩

example : Rule.fromName (cs! "any_is_na") = some .anyIsNa := by decide
example : Rule.fromName (cs! "any_is_naa") = none := by decide

/-! ## C02-C04 -/

/-- Everything `build_config` computes, when it succeeds. -/
theorem buildConfig_ok {args toml op probes cfg} (h : buildConfig args toml op probes = .ok cfg) :
    determineMinimumRVersion args probes = .ok cfg.minimumRVersion ∧
    (∃ cli tml, parseRulesCli args.select args.extendSelect args.ignore = .ok cli ∧
      parseRulesToml toml = .ok tml ∧
      cfg.rules = filterRulesByVersion (reconcileRules cli tml) cfg.minimumRVersion) ∧
    parseFixableToml toml = .ok (cfg.fixable, cfg.unfixable) ∧
    cfg.rulesToApply = rulesToApply cfg.rules args.fix args.unsafeFixes args.fixOnly ∧
    cfg.applyFixes = args.fix ∧ cfg.applyUnsafeFixes = args.unsafeFixes ∧
    cfg.allowDirty = args.allowDirty ∧ cfg.allowNoVcs = args.allowNoVcs := by
  unfold buildConfig at h
  simp only [bind, Except.bind] at h
  split at h
  · cases h
  · rename_i v hv
    split at h
    · cases h
    · rename_i cli hcli
      split at h
      · cases h
      · rename_i tml html
        split at h
        · cases h
        · rename_i fx hfx
          split at h
          · cases h
          · cases h
            exact ⟨hv, ⟨cli, tml, hcli, html, rfl⟩, hfx, rfl, rfl, rfl, rfl, rfl⟩

theorem parseRulesCli_ok {a b c sel} (h : parseRulesCli a b c = .ok sel) :
    OptOk (cliItems a) sel.selected ∧ OptOk (cliItems b) sel.extended ∧
    ∃ o, OptOk (cliItems c) o ∧ sel.ignored = o.getD [] := by
  unfold parseRulesCli at h
  simp only [bind, Except.bind] at h
  split at h
  · cases h
  · rename_i x hx
    split at h
    · cases h
    · rename_i y hy
      split at h
      · cases h
      · rename_i z hz
        cases h
        exact ⟨parseCliList_ok hx, parseCliList_ok hy, z, parseCliList_ok hz, rfl⟩

theorem parseRulesToml_ok {toml sel} (h : parseRulesToml toml = .ok sel) :
    OptOk (toml.bind (·.select)) sel.selected ∧ OptOk (toml.bind (·.extendSelect)) sel.extended ∧
    ∃ o, OptOk (toml.bind (·.ignore)) o ∧ sel.ignored = o.getD [] := by
  unfold parseRulesToml at h
  split at h
  · cases h; exact ⟨trivial, trivial, none, trivial, rfl⟩
  · simp only [bind, Except.bind] at h
    split at h
    · cases h
    · rename_i x hx
      split at h
      · cases h
      · rename_i y hy
        split at h
        · cases h
        · rename_i z hz
          cases h
          exact ⟨parseTomlList_ok hx, parseTomlList_ok hy, z, parseTomlList_ok hz, rfl⟩

theorem mem_reconcileRules {args toml cli tml}
    (hc : parseRulesCli args.select args.extendSelect args.ignore = .ok cli)
    (ht : parseRulesToml toml = .ok tml) (r : Rule) :
    r ∈ reconcileRules cli tml ↔ Selected args toml r := by
  obtain ⟨hc1, hc2, oc, hc3, hc4⟩ := parseRulesCli_ok hc
  obtain ⟨ht1, ht2, ot, ht3, ht4⟩ := parseRulesToml_ok ht
  unfold reconcileRules Selected
  simp only [List.mem_filter, r.mem_all, true_and, List.any_eq_true, decide_eq_true_eq]
  have hign : (r.name ∈ cli.ignored ++ tml.ignored) ↔ Ignored args toml r := by
    rw [List.mem_append, hc4, ht4, OptOk_getD hc3, OptOk_getD ht3]
    unfold Ignored
    refine or_congr Iff.rfl ?_
    cases toml <;> simp
  have hdef : r.name ∈ allRulesEnabledByDefault ↔ r.enabledByDefault = true := by
    unfold allRulesEnabledByDefault
    simp only [List.mem_map, List.mem_filter]
    constructor
    · rintro ⟨r', ⟨_, h⟩, he⟩; rw [← Rule.name_inj he]; exact h
    · intro h; exact ⟨r, ⟨r.mem_all, h⟩, rfl⟩
  have collapse : ∀ (P : Str → Prop), (∃ n, P n ∧ n = r.name) ↔ P r.name :=
    fun P => ⟨fun ⟨_, h, e⟩ => e ▸ h, fun h => ⟨_, h, rfl⟩⟩
  rw [collapse]
  simp only [Bool.not_eq_true', List.contains_eq_mem, decide_eq_false_iff_not, hign]
  refine and_congr ?_ Iff.rfl
  unfold given
  cases h1 : cliItems args.select <;> cases h1' : cli.selected <;>
    simp only [h1, h1', OptOk] at hc1 <;>
  cases h2 : cliItems args.extendSelect <;> cases h2' : cli.extended <;>
    simp only [h2, h2', OptOk] at hc2 <;>
  cases h3 : toml.bind (·.select) <;> cases h3' : tml.selected <;>
    simp only [h3, h3', OptOk] at ht1 <;>
  cases h4 : toml.bind (·.extendSelect) <;> cases h4' : tml.extended <;>
    simp only [h4, h4', OptOk] at ht2 <;>
  simp [List.mem_append, *]

theorem RVersion.le_iff (a b : RVersion) : a.le b = true ↔ VersionLe a b := by
  unfold RVersion.le VersionLe
  simp [Bool.or_eq_true, Bool.and_eq_true]

theorem mem_filterRulesByVersion (l : List Rule) (v : Option RVersion) (r : Rule) :
    r ∈ filterRulesByVersion l v ↔ r ∈ l ∧ VersionOk v r := by
  unfold filterRulesByVersion VersionOk
  cases v with
  | none =>
    simp only [List.mem_filter]
    refine and_congr Iff.rfl ?_
    cases r.minVersion <;> simp
  | some pv =>
    simp only [List.mem_filter]
    refine and_congr Iff.rfl ?_
    cases r.minVersion with
    | none => simp
    | some rv => simp [RVersion.le_iff]

/-- C02: the rules of a successfully built configuration are exactly the selected ones that pass the
version gate, in table order and without duplicates. -/
theorem C02_rule_selection {args toml op probes cfg} (h : buildConfig args toml op probes = .ok cfg) :
    (∀ r : Rule, r ∈ cfg.rules ↔ Selected args toml r ∧ VersionOk cfg.minimumRVersion r) ∧
    cfg.rules.Sublist Rule.all ∧ cfg.rules.Nodup := by
  obtain ⟨_, ⟨cli, tml, hc, ht, hr⟩, _⟩ := buildConfig_ok h
  have hsub : cfg.rules.Sublist Rule.all := by
    rw [hr]
    unfold filterRulesByVersion reconcileRules
    split <;> exact (List.filter_sublist).trans (List.filter_sublist)
  refine ⟨fun r => ?_, hsub, hsub.nodup Rule.all_nodup⟩
  rw [hr, mem_filterRulesByVersion, mem_reconcileRules hc ht]

/-- C03: a rule named by `--ignore` or by TOML `ignore`, in whatever way, is neither in the rule set
nor applied. -/
theorem C03_ignore_wins {args toml op probes cfg r} (h : buildConfig args toml op probes = .ok cfg)
    (hi : Ignored args toml r) : r ∉ cfg.rules ∧ r ∉ cfg.rulesToApply := by
  have h1 : r ∉ cfg.rules := fun hr => (((C02_rule_selection h).1 r).mp hr).1.2 hi
  refine ⟨h1, ?_⟩
  rw [(buildConfig_ok h).2.2.2.1]
  unfold rulesToApply
  intro hr
  revert hr
  simp only []
  split
  · exact fun hr => h1 (List.mem_filter.mp hr).1
  · split
    · exact h1
    · exact fun hr => h1 (List.mem_filter.mp hr).1
    · exact fun hr => h1 (List.mem_filter.mp hr).1

/-- C04: provided the R version can be determined and `--assignment` is valid, building the
configuration succeeds exactly when every item of every list is a rule, a group or `ALL`; the error is
then the "unknown rules" error. -/
theorem C04_unknown_rules_rejected {args toml op probes v}
    (hv : determineMinimumRVersion args probes = .ok v)
    (ha : ∀ s, args.assignment = some s → s = cs! "<-" ∨ s = cs! "=") :
    ((∃ cfg, buildConfig args toml op probes = .ok cfg) ↔ ∀ i, UserItem args toml i → Known i) ∧
    (∀ e, buildConfig args toml op probes = .error e → e = .unknownRules) := by
  have hassign : ∃ a, resolveAssignment args.assignment op = .ok a := by
    unfold resolveAssignment
    cases h : args.assignment with
    | none => exact ⟨op, rfl⟩
    | some s =>
      rcases ha s h with rfl | rfl
      · exact ⟨.arrow, rfl⟩
      · exact ⟨.equal, by simp [parseAssignmentCli]⟩
  obtain ⟨a, hassign⟩ := hassign
  -- each of the eight list parsers either succeeds with all items known or fails
  have step : ∀ l : Option (List Str), (∃ o, parseTomlList l = .ok o ∧ ∀ l', l = some l' → ∀ i ∈ l', Known i) ∨
      (parseTomlList l = .error .unknownRules ∧ ∃ l', l = some l' ∧ ∃ i ∈ l', ¬ Known i) := by
    intro l
    cases hp : parseTomlList l with
    | ok o => exact .inl ⟨o, rfl, fun l' hl => OptOk_known (parseTomlList_ok hp) hl⟩
    | error e =>
      obtain ⟨rfl, h⟩ := parseTomlList_error hp
      exact .inr ⟨rfl, h⟩
  have bad : ∀ {i}, UserItem args toml i → ¬ Known i → buildConfig args toml op probes = .error .unknownRules →
      ((∃ cfg, buildConfig args toml op probes = .ok cfg) ↔ ∀ i, UserItem args toml i → Known i) ∧
      (∀ e, buildConfig args toml op probes = .error e → e = .unknownRules) := by
    intro i hu hk he
    rw [he]
    refine ⟨⟨?_, fun h => absurd (h i hu) hk⟩, ?_⟩
    · rintro ⟨_, h⟩; cases h
    · intro e h; cases h; rfl
  have cliBad : ∀ {l'}, (cliItems args.select = some l' ∨ cliItems args.extendSelect = some l' ∨
         cliItems args.ignore = some l') → ∀ {i}, i ∈ l' → UserItem args toml i :=
    fun h _ hi => .inl ⟨_, h, hi⟩
  rcases step (cliItems args.select) with ⟨o1, e1, k1⟩ | ⟨e1, l, hl, i, hi, hk⟩
  rotate_left
  · refine bad (cliBad (.inl hl) hi) hk ?_
    simp [buildConfig, hv, bind, Except.bind, parseRulesCli, parseCliList_eq, e1]
  rcases step (cliItems args.extendSelect) with ⟨o2, e2, k2⟩ | ⟨e2, l, hl, i, hi, hk⟩
  rotate_left
  · refine bad (cliBad (.inr (.inl hl)) hi) hk ?_
    simp [buildConfig, hv, bind, Except.bind, parseRulesCli, parseCliList_eq, e1, e2]
  rcases step (cliItems args.ignore) with ⟨o3, e3, k3⟩ | ⟨e3, l, hl, i, hi, hk⟩
  rotate_left
  · refine bad (cliBad (.inr (.inr hl)) hi) hk ?_
    simp [buildConfig, hv, bind, Except.bind, parseRulesCli, parseCliList_eq, e1, e2, e3]
  cases toml with
  | none =>
    refine ⟨⟨fun _ => ?_, fun _ => ?_⟩, ?_⟩
    · rintro i (⟨l, hl, hi⟩ | ⟨s, l, h, _⟩)
      · rcases hl with hl | hl | hl
        · exact k1 l hl i hi
        · exact k2 l hl i hi
        · exact k3 l hl i hi
      · cases h
    all_goals
      simp [buildConfig, hv, bind, Except.bind, parseRulesCli, parseCliList_eq, e1, e2, e3,
        parseRulesToml, parseFixableToml, pure, Except.pure, hassign]
  | some s =>
    have tomlBad : ∀ {l'}, (s.select = some l' ∨ s.extendSelect = some l' ∨ s.ignore = some l' ∨
         s.fixable = some l' ∨ s.unfixable = some l') → ∀ {i}, i ∈ l' → UserItem args (some s) i :=
      fun h _ hi => .inr ⟨_, _, rfl, h, hi⟩
    rcases step s.select with ⟨o4, e4, k4⟩ | ⟨e4, l, hl, i, hi, hk⟩
    rotate_left
    · refine bad (tomlBad (.inl hl) hi) hk ?_
      simp [buildConfig, hv, bind, Except.bind, parseRulesCli, parseCliList_eq, e1, e2, e3, e4,
        parseRulesToml, pure, Except.pure]
    rcases step s.extendSelect with ⟨o5, e5, k5⟩ | ⟨e5, l, hl, i, hi, hk⟩
    rotate_left
    · refine bad (tomlBad (.inr (.inl hl)) hi) hk ?_
      simp [buildConfig, hv, bind, Except.bind, parseRulesCli, parseCliList_eq, e1, e2, e3, e4, e5,
        parseRulesToml, pure, Except.pure]
    rcases step s.ignore with ⟨o6, e6, k6⟩ | ⟨e6, l, hl, i, hi, hk⟩
    rotate_left
    · refine bad (tomlBad (.inr (.inr (.inl hl))) hi) hk ?_
      simp [buildConfig, hv, bind, Except.bind, parseRulesCli, parseCliList_eq, e1, e2, e3, e4, e5, e6,
        parseRulesToml, pure, Except.pure]
    rcases step s.fixable with ⟨o7, e7, k7⟩ | ⟨e7, l, hl, i, hi, hk⟩
    rotate_left
    · refine bad (tomlBad (.inr (.inr (.inr (.inl hl)))) hi) hk ?_
      simp [buildConfig, hv, bind, Except.bind, parseRulesCli, parseCliList_eq, e1, e2, e3, e4, e5, e6, e7,
        parseRulesToml, parseFixableToml, pure, Except.pure]
    rcases step s.unfixable with ⟨o8, e8, k8⟩ | ⟨e8, l, hl, i, hi, hk⟩
    rotate_left
    · refine bad (tomlBad (.inr (.inr (.inr (.inr hl)))) hi) hk ?_
      simp [buildConfig, hv, bind, Except.bind, parseRulesCli, parseCliList_eq, e1, e2, e3, e4, e5, e6, e7, e8,
        parseRulesToml, parseFixableToml, pure, Except.pure]
    refine ⟨⟨fun _ => ?_, fun _ => ?_⟩, ?_⟩
    · rintro i (⟨l, hl, hi⟩ | ⟨s', l, h, hl, hi⟩)
      · rcases hl with hl | hl | hl
        · exact k1 l hl i hi
        · exact k2 l hl i hi
        · exact k3 l hl i hi
      · cases h
        rcases hl with hl | hl | hl | hl | hl
        · exact k4 l hl i hi
        · exact k5 l hl i hi
        · exact k6 l hl i hi
        · exact k7 l hl i hi
        · exact k8 l hl i hi
    all_goals
      simp [buildConfig, hv, bind, Except.bind, parseRulesCli, parseCliList_eq, e1, e2, e3, e4, e5, e6, e7, e8,
        parseRulesToml, parseFixableToml, pure, Except.pure, hassign]

/-! ### Witnesses: the hypotheses of C02-C04 are met by non-trivial cases -/

/-- `--select "PERF, browser" --ignore any_is_na` with `extend-select = ["assignment"]` in TOML. -/
def exArgs : ArgsConfig :=
  { select := cs! "PERF, browser", ignore := cs! "any_is_na", fix := true,
    minRVersion := some (cs! "4.3") }
def exToml : LinterSettings := { select := some [cs! "READ"], extendSelect := some [cs! "assignment"] }

example : ∃ cfg, buildConfig exArgs (some exToml) .arrow [] = .ok cfg ∧
    Rule.browser ∈ cfg.rules ∧ Rule.assignment ∈ cfg.rules ∧ Rule.anyDuplicated ∈ cfg.rules ∧
    Rule.anyIsNa ∉ cfg.rules ∧ Rule.seq ∉ cfg.rules := by
  refine ⟨_, rfl, ?_⟩
  decide +kernel

example : buildConfig { exArgs with select := cs! "PERF,brwser" } none .arrow [] = .error .unknownRules := rfl

/-! ## C05 -/

/-- C05: a rule with a version requirement is in the rule set only if the project version is known and
high enough; a rule without requirement is there for every version iff it is selected; and for the same
lists, a higher version never loses a rule. -/
theorem C05_version_gate {args toml op probes cfg} (h : buildConfig args toml op probes = .ok cfg)
    (r : Rule) :
    (∀ rv, r.minVersion = some rv → r ∈ cfg.rules →
      ∃ pv, cfg.minimumRVersion = some pv ∧ VersionLe rv pv) ∧
    (r.minVersion = none → (r ∈ cfg.rules ↔ Selected args toml r)) := by
  refine ⟨fun rv hrv hr => ?_, fun hn => ?_⟩
  · have := (((C02_rule_selection h).1 r).mp hr).2
    unfold VersionOk at this
    rw [hrv] at this
    exact this
  · rw [(C02_rule_selection h).1 r]
    unfold VersionOk
    rw [hn]
    simp

theorem VersionLe_trans {a b c : RVersion} (h1 : VersionLe a b) (h2 : VersionLe b c) : VersionLe a c := by
  unfold VersionLe at *
  omega

/-- C05, monotonicity: two runs that differ only in the version (given on the command line or found in
DESCRIPTION files). -/
theorem C05_version_monotone {args args' toml op probes probes' cfg cfg' v v'}
    (h : buildConfig args toml op probes = .ok cfg)
    (h' : buildConfig args' toml op probes' = .ok cfg')
    (hsame : args'.select = args.select ∧ args'.extendSelect = args.extendSelect ∧
      args'.ignore = args.ignore)
    (hv : cfg.minimumRVersion = some v) (hv' : cfg'.minimumRVersion = some v')
    (hle : VersionLe v v') :
    ∀ r ∈ cfg.rules, r ∈ cfg'.rules := by
  intro r hr
  obtain ⟨hs, hok⟩ := ((C02_rule_selection h).1 r).mp hr
  refine ((C02_rule_selection h').1 r).mpr ⟨?_, ?_⟩
  · obtain ⟨e1, e2, e3⟩ := hsame
    unfold Selected Ignored at *
    rw [e1, e2, e3]
    exact hs
  · unfold VersionOk at *
    cases hm : r.minVersion with
    | none => trivial
    | some rv =>
      rw [hm] at hok
      obtain ⟨pv, hpv, hle'⟩ := hok
      rw [hv] at hpv
      cases hpv
      exact ⟨v', hv', VersionLe_trans hle' hle⟩

/-- An unknown version behaves like a version below every requirement. -/
theorem C05_unknown_version {args toml op probes cfg} (h : buildConfig args toml op probes = .ok cfg)
    (hv : cfg.minimumRVersion = none) (r : Rule) (hr : r ∈ cfg.rules) : r.minVersion = none := by
  have := (C05_version_gate h r).1
  cases hm : r.minVersion with
  | none => rfl
  | some rv =>
    obtain ⟨pv, hpv, _⟩ := this rv hm hr
    rw [hv] at hpv
    cases hpv

example : ∃ cfg, buildConfig { minRVersion := some (cs! "4.4.0") } none .arrow [] = .ok cfg ∧
    Rule.coalesce ∈ cfg.rules ∧ Rule.grepv ∉ cfg.rules := by
  refine ⟨_, rfl, ?_⟩
  decide +kernel

/-! ## C06 -/

/-- C06 (partial): with `--fix`, without `--unsafe-fixes` **and without `--fix-only`**, no rule whose fix
is unsafe is run. Missing from the full claim: the `--fix-only` case, for which it is false
(`C06_false_with_fix_only`). -/
theorem C06_no_unsafe_fix_partial {args toml op probes cfg}
    (h : buildConfig args toml op probes = .ok cfg)
    (hf : args.fix = true) (hu : args.unsafeFixes = false) (ho : args.fixOnly = false) :
    ∀ r ∈ cfg.rulesToApply, r.fixStatus ≠ .unsafe_ := by
  rw [(buildConfig_ok h).2.2.2.1, hf, hu, ho]
  intro r hr
  simp only [rulesToApply, List.mem_filter, Bool.false_eq_true, if_false, Rule.hasNoFix,
    Rule.hasSafeFix, Bool.or_eq_true, decide_eq_true_eq] at hr
  rcases hr.2 with h | h <;> rw [h] <;> decide

/-- The full claim C06 fails of the code: `--fix --fix-only` runs `all_equal`, whose fix is unsafe. -/
theorem C06_false_with_fix_only :
    ∃ args cfg, buildConfig args none .arrow [] = .ok cfg ∧ args.fix = true ∧ args.unsafeFixes = false ∧
      ∃ r ∈ cfg.rulesToApply, r.fixStatus = .unsafe_ := by
  refine ⟨{ fix := true, fixOnly := true }, _, rfl, rfl, rfl, .allEqual, ?_, rfl⟩
  decide +kernel

/-- Without `--fix-only`, the flags only ever remove rules with an unsafe fix: nothing else is lost, and
with `--unsafe-fixes` or without fixing flags nothing at all. -/
theorem C06_only_unsafe_removed {args toml op probes cfg}
    (h : buildConfig args toml op probes = .ok cfg) (ho : args.fixOnly = false) (r : Rule) :
    r ∈ cfg.rulesToApply ↔ r ∈ cfg.rules ∧
      ¬ (args.fix = true ∧ args.unsafeFixes = false ∧ r.fixStatus = .unsafe_) := by
  rw [(buildConfig_ok h).2.2.2.1, ho]
  cases args.fix <;> cases args.unsafeFixes <;>
    simp [rulesToApply, Rule.hasNoFix, Rule.hasSafeFix, Rule.hasUnsafeFix]
  all_goals
    intro _
    cases r.fixStatus <;> simp

/-! ## C07, C36: settings -/

/-- **C07 (the lists).** A rule is `unfixable` exactly when the TOML list `unfixable` stands for it; there is a `fixable`
list exactly when TOML has one, and it contains exactly the rules the TOML list stands for. -/
theorem C07_lists {args toml op probes cfg} (h : buildConfig args toml op probes = .ok cfg) (r : Rule) :
    (r.name ∈ cfg.unfixable ↔ ∃ s l, toml = some s ∧ s.unfixable = some l ∧ Names l r) ∧
    (cfg.fixable = none ↔ ∀ s, toml = some s → s.fixable = none) ∧
    (∀ names, cfg.fixable = some names → ∃ s l, toml = some s ∧ s.fixable = some l ∧
      (r.name ∈ names ↔ Names l r)) := by
  obtain ⟨_, _, hf, _⟩ := buildConfig_ok h
  cases toml with
  | none =>
    unfold parseFixableToml at hf
    simp only [Except.ok.injEq, Prod.mk.injEq] at hf
    simp [← hf.1, ← hf.2]
  | some s =>
    unfold parseFixableToml at hf
    simp only [bind, Except.bind] at hf
    split at hf
    · cases hf
    · rename_i x hx
      split at hf
      · cases hf
      · rename_i y hy
        simp only [pure, Except.pure, Except.ok.injEq, Prod.mk.injEq] at hf
        obtain ⟨h1, h2⟩ := hf
        have ox := parseTomlList_ok hx
        have oy := parseTomlList_ok hy
        refine ⟨?_, ?_, ?_⟩
        · rw [← h2, OptOk_getD oy]
          simp
        · rw [← h1]
          clear h1 hx
          cases hs : s.fixable <;> cases x <;> rw [hs] at ox <;> first
            | exact ox.elim
            | simp [hs]
        · intro names hn
          rw [← h1] at hn
          subst hn
          cases hs : s.fixable with
          | none => rw [hs] at ox; exact ox.elim
          | some l => rw [hs] at ox; exact ⟨s, l, rfl, hs, ox.2 r⟩

/-- **C36.** The flags of the command line reach the configuration unchanged, and `--assignment` takes precedence over
the operator of the TOML file. -/
theorem C36_flags {args toml op probes cfg} (h : buildConfig args toml op probes = .ok cfg) :
    cfg.applyFixes = args.fix ∧ cfg.applyUnsafeFixes = args.unsafeFixes ∧ cfg.allowDirty = args.allowDirty ∧
    cfg.allowNoVcs = args.allowNoVcs ∧
    (args.assignment = none → cfg.assignment = op) ∧
    (args.assignment = some (cs! "<-") → cfg.assignment = .arrow) ∧
    (args.assignment = some (cs! "=") → cfg.assignment = .equal) ∧
    (∀ s, args.assignment = some s → s = cs! "<-" ∨ s = cs! "=") := by
  have hb := buildConfig_ok h
  have ha : resolveAssignment args.assignment op = .ok cfg.assignment := by
    unfold buildConfig at h
    simp only [bind, Except.bind] at h
    split at h
    · cases h
    · split at h
      · cases h
      · split at h
        · cases h
        · split at h
          · cases h
          · split at h
            · cases h
            · rename_i a ha
              cases h
              exact ha
  refine ⟨hb.2.2.2.2.1, hb.2.2.2.2.2.1, hb.2.2.2.2.2.2.1, hb.2.2.2.2.2.2.2, ?_, ?_, ?_, ?_⟩
  · intro hn; rw [hn] at ha; exact (Except.ok.inj ha).symm
  · intro hn; rw [hn] at ha; exact (Except.ok.inj ha).symm
  · intro hn; rw [hn] at ha; exact (Except.ok.inj ha).symm
  · intro s hn
    rw [hn] at ha
    unfold resolveAssignment parseAssignmentCli at ha
    simp only at ha
    split at ha
    · left; assumption
    · split at ha
      · right; assumption
      · cases ha

example : ∃ cfg, buildConfig { assignment := some (cs! "="), fix := true } (some { fixable := some [cs! "PERF"], unfixable := some [cs! "any_is_na"] })
    .arrow [] = .ok cfg ∧ cfg.assignment = .equal ∧ cfg.unfixable = [cs! "any_is_na"] ∧
    (cfg.fixable.getD []).contains (cs! "any_is_na") = true := by
  refine ⟨_, rfl, ?_⟩
  decide +kernel

end Jarl
