import Verif.Description
/-!
# Config: rule selection (config.rs)

`HashSet<String>` is a list used only through membership.
-/

namespace Jarl

/-- config.rs:16-21 `RuleSelection`. -/
structure RuleSelection where
  selected : Option (List Str)
  extended : Option (List Str)
  ignored : List Str

/-- The fields of settings.rs `LinterSettings` used by `build_config`. -/
structure LinterSettings where
  select : Option (List Str) := none
  extendSelect : Option (List Str) := none
  ignore : Option (List Str) := none
  fixable : Option (List Str) := none
  unfixable : Option (List Str) := none
  deriving DecidableEq

/-- config.rs:25-50 `ArgsConfig` (the paths are given separately). -/
structure ArgsConfig where
  fix : Bool := false
  unsafeFixes : Bool := false
  fixOnly : Bool := false
  select : Str := []
  extendSelect : Str := []
  ignore : Str := []
  minRVersion : Option Str := none
  allowDirty : Bool := false
  allowNoVcs : Bool := false
  assignment : Option Str := none

/-- `RSyntaxKind::ASSIGN` / `RSyntaxKind::EQUAL`, the two operators of the `assignment` rule. -/
inductive AssignOp | arrow | equal
  deriving DecidableEq, Repr

/-- config.rs:53-83 `Config` (the fields decided by `build_config`; of `rule_options` only the
assignment operator, which is the only one `build_config` changes). -/
structure Config where
  rules : List Rule
  rulesToApply : List Rule
  applyFixes : Bool
  applyUnsafeFixes : Bool
  minimumRVersion : Option RVersion
  allowDirty : Bool
  allowNoVcs : Bool
  unfixable : List Str
  fixable : Option (List Str)
  assignment : AssignOp
  deriving DecidableEq

/-- Error or panic of `build_config`. -/
inductive Fail
  /-- `Err(..)` because of unknown rules in one of the lists -/
  | unknownRules
  /-- `Err(..)` of `parse_r_version` -/
  | badVersion
  /-- `Err(..)` of `fs::read_to_string` on DESCRIPTION -/
  | io
  /-- `Err(..)` of `parse_assignment_cli` -/
  | badAssignment
  /-- Rust panic -/
  | panic
  deriving DecidableEq, Repr

/-- config.rs:395-422 `replace_group_rules`. -/
def replaceGroupRules (passed : List Str) : List Str :=
  passed.flatMap fun s =>
    let t := trim s
    if t = cs! "ALL" then Rule.all.map Rule.name
    else if (Category.all.map Category.name).contains t then
      match Category.parse t with
      | some c => (Rule.all.filter (fun r => r.hasCategory c)).map Rule.name
      | none => []
    else [t]

/-- config.rs:429-457 `get_invalid_rules` is `Some` (its text is not modelled). -/
def hasInvalidRules (expanded : List Str) : Bool :=
  expanded.any fun s => (trim s).isEmpty || !(Rule.all.map Rule.name).contains (trim s)

/-- The common body of the six list parsers: config.rs:171-186, 192-207, 213-228, 258-272, 280-294,
301-315, 347-361, 369-383. -/
def parseList (passed : List Str) : Except Fail (List Str) :=
  let expanded := replaceGroupRules passed
  if hasInvalidRules expanded then .error .unknownRules
  else .ok ((Rule.all.filter (fun r => expanded.any (fun n => n = r.name))).map Rule.name)

/-- `if s.is_empty() { None } else { Some(parse) }` on a CLI string (config.rs:168-229). -/
def parseCliList (s : Str) : Except Fail (Option (List Str)) :=
  if s.isEmpty then .ok none
  else match parseList (splitOn ',' s) with
    | .ok l => .ok (some l)
    | .error e => .error e

/-- `if let Some(list) = .. { Some(parse) } else { None }` on a TOML list. -/
def parseTomlList (l : Option (List Str)) : Except Fail (Option (List Str)) :=
  match l with
  | none => .ok none
  | some l => match parseList l with
    | .ok l => .ok (some l)
    | .error e => .error e

/-- config.rs:165-236 `parse_rules_cli`. -/
def parseRulesCli (select extendSelect ignore : Str) : Except Fail RuleSelection := do
  let selected ← parseCliList select
  let extended ← parseCliList extendSelect
  let ignored ← parseCliList ignore
  return { selected, extended, ignored := ignored.getD [] }

/-- config.rs:242-325 `parse_rules_toml`. -/
def parseRulesToml (toml : Option LinterSettings) : Except Fail RuleSelection :=
  match toml with
  | none => .ok ⟨none, none, []⟩
  | some s => do
    let selected ← parseTomlList s.select
    let extended ← parseTomlList s.extendSelect
    let ignored ← parseTomlList s.ignore
    return { selected, extended, ignored := ignored.getD [] }

/-- config.rs:332-389 `parse_fixable_toml`: (fixable, unfixable). -/
def parseFixableToml (toml : Option LinterSettings) : Except Fail (Option (List Str) × List Str) :=
  match toml with
  | none => .ok (none, [])
  | some s => do
    let fixable ← parseTomlList s.fixable
    let unfixable ← parseTomlList s.unfixable
    return (fixable, unfixable.getD [])

/-- lints/mod.rs:8-14 `all_rules_enabled_by_default`. -/
def allRulesEnabledByDefault : List Str :=
  (Rule.all.filter (fun r => r.enabledByDefault)).map Rule.name

/-- config.rs:465-507 `reconcile_rules`. -/
def reconcileRules (cli toml : RuleSelection) : List Rule :=
  let base := match cli.selected with
    | some l => l
    | none => match toml.selected with
      | some l => l
      | none => allRulesEnabledByDefault
  let final := match cli.extended with
    | some l => base ++ l
    | none => match toml.extended with
      | some l => base ++ l
      | none => base
  let ignored := cli.ignored ++ toml.ignored
  let names := final.filter (fun n => !ignored.contains n)
  Rule.all.filter (fun r => names.any (fun n => n = r.name))

/-- What `determine_minimum_r_version` finds at `DESCRIPTION` next to one of the paths
(config.rs:521-538): no such file, an unreadable file, or its text. -/
inductive DescProbe | absent | unreadable | text (s : Str)

/-- The loop config.rs:521-540 over the paths. -/
def minVersionFromDesc : List DescProbe → Except Fail (Option RVersion)
  | [] => .ok none
  | .absent :: ps => minVersionFromDesc ps
  | .unreadable :: _ => .error .io
  | .text s :: ps =>
    match getDependRVersion s with
    | .panic => .error .panic
    | .ok [] => minVersionFromDesc ps
    | .ok (v :: _) => match parseRVersion v with
      | some v => .ok (some v)
      | none => .error .badVersion

/-- config.rs:510-541 `determine_minimum_r_version`. -/
def determineMinimumRVersion (args : ArgsConfig) (probes : List DescProbe) :
    Except Fail (Option RVersion) :=
  match args.minRVersion with
  | some s => match parseRVersion s with
    | some v => .ok (some v)
    | none => .error .badVersion
  | none => minVersionFromDesc probes

/-- config.rs:571-599 `filter_rules_by_version`. -/
def filterRulesByVersion (rules : List Rule) (v : Option RVersion) : List Rule :=
  match v with
  | none => rules.filter (fun r => r.minVersion.isNone)
  | some pv => rules.filter (fun r => match r.minVersion with
    | none => true
    | some rv => rv.le pv)

/-- config.rs:601-610 `parse_assignment_cli`. -/
def parseAssignmentCli (s : Str) : Except Fail AssignOp :=
  if s = cs! "<-" then .ok .arrow
  else if s = cs! "=" then .ok .equal
  else .error .badAssignment

/-- config.rs:111-135: rules kept given the `--fix`, `--unsafe-fixes` and `--fix-only` flags. -/
def rulesToApply (rules : List Rule) (fix unsafeFixes fixOnly : Bool) : List Rule :=
  let toApply := match fix, unsafeFixes with
    | false, false => rules
    | true, false => rules.filter (fun r => r.hasNoFix || r.hasSafeFix)
    | _, true => rules.filter (fun r => r.hasNoFix || r.hasSafeFix || r.hasUnsafeFix)
  if fixOnly then rules.filter (fun r => !r.hasNoFix) else toApply

/-- config.rs:137-144: the CLI `--assignment` overrides the TOML-resolved operator. -/
def resolveAssignment (cli : Option Str) (toml : AssignOp) : Except Fail AssignOp :=
  match cli with
  | some s => parseAssignmentCli s
  | none => .ok toml

/-- config.rs:85-159 `build_config`. `tomlAssignment` is `settings.linter.rule_options.assignment`
(the default is `<-`). -/
def buildConfig (args : ArgsConfig) (toml : Option LinterSettings) (tomlAssignment : AssignOp)
    (probes : List DescProbe) : Except Fail Config := do
  let minimumRVersion ← determineMinimumRVersion args probes
  let cli ← parseRulesCli args.select args.extendSelect args.ignore
  let tml ← parseRulesToml toml
  let rules := filterRulesByVersion (reconcileRules cli tml) minimumRVersion
  let (fixable, unfixable) ← parseFixableToml toml
  let assignment ← resolveAssignment args.assignment tomlAssignment
  return { rules,
           rulesToApply := rulesToApply rules args.fix args.unsafeFixes args.fixOnly,
           applyFixes := args.fix, applyUnsafeFixes := args.unsafeFixes,
           minimumRVersion, allowDirty := args.allowDirty, allowNoVcs := args.allowNoVcs,
           unfixable, fixable, assignment }

end Jarl
