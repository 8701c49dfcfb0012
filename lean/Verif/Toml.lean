import Verif.Config
import Verif.Cfg
import Verif.RReports
/-!
# Toml: what a configuration file says (jarl-core toml.rs, rule_options/*.rs, settings.rs)

The text of the file is read by the crate `toml`; the model starts from the document it gives, or from its refusal. What
`#[derive(Deserialize)]` generates is modelled by `field` and `known`: keys are matched exactly, a known key given twice is an error,
an unknown key is an error under `deny_unknown_fields`. All errors of this first stage are one error here (`parse`): their texts and which of
several comes first are not modelled. Not modelled either: a table of options written as an array (`derive(Deserialize)` has a second way of
reading a struct); the model refuses it.
-/

namespace Jarl

/-- A value of a TOML document. -/
inductive Toml
  | str (s : Str)
  | int (i : Int)
  | bool (b : Bool)
  /-- floats and dates, which no option takes -/
  | other
  | array (l : List Toml)
  | table (t : List (Str × Toml))

/-- A table: its keys and values in the order of the file. -/
abbrev TomlTable := List (Str × Toml)

/-- The value of a key. -/
def field (t : TomlTable) (k : Str) : Option Toml := (t.find? (fun e => e.1 = k)).map (·.2)

/-- How often a key is given. -/
def given (t : TomlTable) (k : Str) : Nat := (t.filter (fun e => e.1 = k)).length

/-- Every key is one of `ks`, and none of those is given twice. -/
def known (ks : List Str) (t : TomlTable) : Bool := t.all (fun e => ks.contains e.1) && ks.all (fun k => decide (given t k ≤ 1))

/-- `String`. -/
def asStr : Toml → Option Str
  | .str s => some s
  | _ => none

/-- `Vec<String>`. -/
def asStrs : Toml → Option (List Str)
  | .array l => l.mapM asStr
  | _ => none

/-- `bool`. -/
def asBool : Toml → Option Bool
  | .bool b => some b
  | _ => none

/-- `usize`. -/
def asNat : Toml → Option Nat
  | .int i => if 0 ≤ i then some i.toNat else none
  | _ => none

/-- `Option<T>` under a key: `none` is an error, `some none` an absent key. -/
def optional {α : Type} (read : Toml → Option α) (t : TomlTable) (k : Str) : Option (Option α) :=
  match field t k with
  | none => some none
  | some v => (read v).map some

/-! ## The options of one rule -/

/-- A table with a list of functions and the same name with `extend-`. rule_options/duplicated_arguments.rs 17-20, implicit_assignment.rs
25-28, undesirable_function.rs 16-19, unreachable_code.rs 18-21. -/
def asListOpt (name : Str) : Toml → Option ListOpt
  | .table t => do
    guard (known [name, cs! "extend-" ++ name] t)
    let base ← optional asStrs t name
    let extend ← optional asStrs t (cs! "extend-" ++ name)
    some ⟨base, extend⟩
  | _ => none

/-- `UnusedFunctionOptions`. rule_options/unused_function.rs 17-20. -/
structure UnusedOpt where
  threshold : Option Nat := none
  skipped : Option (List Str) := none

/-- Its table. -/
def asUnused : Toml → Option UnusedOpt
  | .table t => do
    guard (known [cs! "threshold-ignore", cs! "skipped-functions"] t)
    let threshold ← optional asNat t (cs! "threshold-ignore")
    let skipped ← optional asStrs t (cs! "skipped-functions")
    some ⟨threshold, skipped⟩
  | _ => none

/-- `AssignmentConfig`. rule_options/assignment.rs 24-29. -/
inductive AssignConf
  | legacy (s : Str)
  | options (operator : Option Str)

/-- `AssignmentConfigVisitor`: a string or a table. rule_options/assignment.rs 31-63. -/
def asAssign : Toml → Option AssignConf
  | .str s => some (.legacy s)
  | .table t => do
    guard (known [cs! "operator"] t)
    let op ← optional asStr t (cs! "operator")
    some (.options op)
  | _ => none

/-! ## `[lint]` -/

/-- `LinterTomlOptions`. toml.rs 73-256. -/
structure LinterToml where
  select : Option (List Str) := none
  extendSelect : Option (List Str) := none
  ignore : Option (List Str) := none
  fixable : Option (List Str) := none
  unfixable : Option (List Str) := none
  incl : Option (List Str) := none
  excl : Option (List Str) := none
  defaultExclude : Option Bool := none
  assignment : Option AssignConf := none
  dup : Option ListOpt := none
  implicit : Option ListOpt := none
  undesirable : Option ListOpt := none
  unreachable : Option ListOpt := none
  unused : Option UnusedOpt := none
  /-- the keys of `unknown_fields` -/
  unknown : List Str := []

/-- The keys of `[lint]`: kebab-case, the names of rules as they are. toml.rs 71-253. -/
def lintKeys : List Str :=
  [cs! "select", cs! "extend-select", cs! "ignore", cs! "fixable", cs! "unfixable", cs! "include", cs! "exclude", cs! "default-exclude",
   cs! "assignment", cs! "duplicated_arguments", cs! "implicit_assignment", cs! "undesirable_function", cs! "unreachable_code",
   cs! "unused_function"]

/-- The table `[lint]`: unknown keys are kept (`#[serde(flatten)]`, toml.rs 251-255). -/
def asLint : Toml → Option LinterToml
  | .table t => do
    guard (lintKeys.all (fun k => decide (given t k ≤ 1)))
    let select ← optional asStrs t (cs! "select")
    let extendSelect ← optional asStrs t (cs! "extend-select")
    let ignore ← optional asStrs t (cs! "ignore")
    let fixable ← optional asStrs t (cs! "fixable")
    let unfixable ← optional asStrs t (cs! "unfixable")
    let incl ← optional asStrs t (cs! "include")
    let excl ← optional asStrs t (cs! "exclude")
    let defaultExclude ← optional asBool t (cs! "default-exclude")
    let assignment ← optional asAssign t (cs! "assignment")
    let dup ← optional (asListOpt (cs! "skipped-functions")) t (cs! "duplicated_arguments")
    let implicit ← optional (asListOpt (cs! "skipped-functions")) t (cs! "implicit_assignment")
    let undesirable ← optional (asListOpt (cs! "functions")) t (cs! "undesirable_function")
    let unreachable ← optional (asListOpt (cs! "stopping-functions")) t (cs! "unreachable_code")
    let unused ← optional asUnused t (cs! "unused_function")
    some { select, extendSelect, ignore, fixable, unfixable, incl, excl, defaultExclude, assignment, dup, implicit, undesirable,
           unreachable, unused, unknown := (t.map (·.1)).filter (fun k => !lintKeys.contains k) }
  | _ => none

/-- `toml::from_str` into `TomlOptions`: `deny_unknown_fields`, and `GlobalTomlOptions` has no field. toml.rs 56-68. -/
def asOptions (doc : TomlTable) : Option (Option LinterToml) := do
  guard (known [cs! "lint"] doc)
  optional asLint doc (cs! "lint")

/-! ## Settings -/

/-- Why a configuration file is refused. -/
inductive TomlFail
  /-- `fs::read_to_string(path).unwrap()` -/
  | panic
  /-- "Failed to parse" -/
  | parse
  /-- "Unknown field `{field}` in `[lint]`" -/
  | unknownField (k : Str)
  /-- "Invalid value for `operator`" -/
  | operator (s : Str)
  /-- "Cannot specify both" in the table of that rule -/
  | both (rule : Str)
  /-- "Invalid regex" -/
  | regex (p : Str)
deriving DecidableEq, Repr

/-- `Settings`. settings.rs 10-31, rule_options/mod.rs 67-75. -/
structure JarlSettings where
  linter : LinterSettings
  incl : Option (List Str)
  excl : Option (List Str)
  defaultExclude : Option Bool
  deprecatedAssignment : Bool
  assignment : AssignOp
  dupSkipped : List Str
  implicitSkipped : List Str
  undesirable : List Str
  stopping : List Str
  threshold : Nat
  /-- the patterns of `unused_function` -/
  skipped : List Str

/-- `ResolvedAssignmentOptions::resolve`. rule_options/assignment.rs 71-88. -/
def resolveOperator : Option Str → Except TomlFail AssignOp
  | none => .ok .arrow
  | some s => if s = cs! "<-" then .ok .arrow else if s = cs! "=" then .ok .equal else .error (.operator s)

/-- `resolve_with_extend` with its error. rule_options/mod.rs 32-57. -/
def resolveList (rule : Str) (o : Option ListOpt) (defaults : List Str) : Except TomlFail (List Str) :=
  match resolveWithExtend (o.bind (·.base)) (o.bind (·.extend)) defaults with
  | none => .error (.both rule)
  | some l => .ok l

/-- `ResolvedUnusedFunctionOptions::resolve`, the patterns: the first that is not a regular expression is reported.
rule_options/unused_function.rs 35-49. -/
def resolvePatterns (isRegex : Str → Bool) (ps : List Str) : Except TomlFail (List Str) :=
  match ps.find? (fun p => !isRegex p) with
  | some p => .error (.regex p)
  | none => .ok ps

/-- The environment: what is a regular expression, and which of the keys of a `HashMap` comes first. -/
structure TomlEnv where
  isRegex : Str → Bool
  first : List Str → Option Str

/-- `into_settings`. toml.rs 286-334. -/
def intoSettings (env : TomlEnv) (o : Option LinterToml) : Except TomlFail JarlSettings := do
  let l := o.getD {}
  match env.first l.unknown with
  | some k => .error (.unknownField k)
  | none =>
    let (operator, deprecated) := match l.assignment with
      | some (.legacy s) => (some s, true)
      | some (.options op) => (op, false)
      | none => (none, false)
    let assignment ← resolveOperator operator
    let dupSkipped ← resolveList (cs! "duplicated_arguments") l.dup dupArgsDefaults
    let implicitSkipped ← resolveList (cs! "implicit_assignment") l.implicit implicitDefaults
    let undesirable ← resolveList (cs! "undesirable_function") l.undesirable undesirableDefaults
    let stopping ← resolveList (cs! "unreachable_code") l.unreachable defaultStopping
    let skipped ← resolvePatterns env.isRegex ((l.unused.bind (·.skipped)).getD [])
    .ok { linter := { select := l.select, extendSelect := l.extendSelect, ignore := l.ignore, fixable := l.fixable, unfixable := l.unfixable },
          incl := l.incl, excl := l.excl, defaultExclude := l.defaultExclude, deprecatedAssignment := deprecated, assignment,
          dupSkipped, implicitSkipped, undesirable, stopping, threshold := (l.unused.bind (·.threshold)).getD 50, skipped }

/-- `is_skipped`. rule_options/unused_function.rs 54-57. -/
def isSkipped (isMatch : Str → Str → Bool) (s : JarlSettings) (name : Str) : Bool := s.skipped.any (fun p => isMatch p name)

/-- `Settings::default()`. settings.rs 33-51, rule_options/mod.rs 105-110. -/
def defaultSettings : JarlSettings :=
  { linter := {}, incl := none, excl := none, defaultExclude := none, deprecatedAssignment := false, assignment := .arrow,
    dupSkipped := dupArgsDefaults, implicitSkipped := implicitDefaults, undesirable := undesirableDefaults, stopping := defaultStopping,
    threshold := 50, skipped := [] }

/-- What reading a file gives: no UTF-8 text (or no permission), text that is not TOML, or a document. -/
inductive TomlFile
  | unreadable
  | notToml
  | doc (t : TomlTable)

/-- `parse_jarl_toml`, then `into_settings`. toml.rs 51-54, discovery.rs 182-188. -/
def parseSettings (env : TomlEnv) : TomlFile → Except TomlFail JarlSettings
  | .unreadable => .error .panic
  | .notToml => .error .parse
  | .doc t =>
    match asOptions t with
    | none => .error .parse
    | some o => intoSettings env o

/-- `find_jarl_toml_in_directory`: which name is read. toml.rs 259-275. -/
def configName (isFile : Str → Bool) : Option Str :=
  if isFile (cs! "jarl.toml") then some (cs! "jarl.toml")
  else if isFile (cs! ".jarl.toml") then some (cs! ".jarl.toml")
  else none

end Jarl
