import Verif.Toml
/-!
# Spec: what a configuration file means

Written from the documentation of `jarl.toml`: which keys exist, what values they take, and what the settings are then.
-/

namespace Jarl.Spec

/-- The key is not given. -/
def Absent (t : TomlTable) (k : Str) : Prop := ∀ v, (k, v) ∉ t

/-- The table has no other keys than these, and none twice. -/
def Keys (ks : List Str) (t : TomlTable) : Prop := (∀ k v, (k, v) ∈ t → k ∈ ks) ∧ (t.map Prod.fst).Nodup

/-- The list `l` of strings. -/
def IsList (v : Toml) (l : List Str) : Prop := v = .array (l.map .str)

/-- The truth value `b`. -/
def IsBool (v : Toml) (b : Bool) : Prop := v = .bool b

/-- The number `n`, not negative. -/
def IsNat (v : Toml) (n : Nat) : Prop := v = .int n

/-- A setting is what its key says, or not set without the key. -/
def Setting {α : Type} (IsA : Toml → α → Prop) (t : TomlTable) (k : Str) (o : Option α) : Prop :=
  (Absent t k ∧ o = none) ∨ ∃ v a, (k, v) ∈ t ∧ IsA v a ∧ o = some a

/-- The table under a key; a missing table is an empty one. -/
def Sub (t : TomlTable) (k : Str) (s : TomlTable) : Prop := (Absent t k ∧ s = []) ∨ (k, .table s) ∈ t

/-- The operators that can be asked for. -/
inductive Operator : Str → AssignOp → Prop
  | arrow : Operator (cs! "<-") .arrow
  | equal : Operator (cs! "=") .equal

/-- `assignment`: the operator, and whether the old form was used. -/
def Assignment (t : TomlTable) (op : AssignOp) (old : Bool) : Prop :=
  (Absent t (cs! "assignment") ∧ op = .arrow ∧ old = false) ∨
  (∃ w, (cs! "assignment", .str w) ∈ t ∧ Operator w op ∧ old = true) ∨
  (∃ s, (cs! "assignment", .table s) ∈ t ∧ Keys [cs! "operator"] s ∧ old = false ∧
    ((Absent s (cs! "operator") ∧ op = .arrow) ∨ ∃ w, (cs! "operator", .str w) ∈ s ∧ Operator w op))

/-- `[lint.rule]` with a list of functions under `name`: that list, or the default with the functions under `extend-name`; not both. -/
def Functions (t : TomlTable) (rule name : Str) (defaults fs : List Str) : Prop :=
  ∃ s, Sub t rule s ∧ Keys [name, cs! "extend-" ++ name] s ∧
    ((Absent s name ∧ Absent s (cs! "extend-" ++ name) ∧ ∀ f, f ∈ fs ↔ f ∈ defaults) ∨
     (∃ v l, (name, v) ∈ s ∧ IsList v l ∧ Absent s (cs! "extend-" ++ name) ∧ ∀ f, f ∈ fs ↔ f ∈ l) ∨
     (∃ v l, (cs! "extend-" ++ name, v) ∈ s ∧ IsList v l ∧ Absent s name ∧ ∀ f, f ∈ fs ↔ f ∈ defaults ∨ f ∈ l))

/-- `[lint.unused_function]`. -/
def UnusedMeans (isRegex : Str → Bool) (t : TomlTable) (threshold : Nat) (patterns : List Str) : Prop :=
  ∃ s n ps, Sub t (cs! "unused_function") s ∧ Keys [cs! "threshold-ignore", cs! "skipped-functions"] s ∧
    Setting IsNat s (cs! "threshold-ignore") n ∧ threshold = n.getD 50 ∧
    Setting IsList s (cs! "skipped-functions") ps ∧ patterns = ps.getD [] ∧ ∀ p ∈ patterns, isRegex p = true

/-- The keys of `[lint]`. -/
def documentedKeys : List Str :=
  [cs! "select", cs! "extend-select", cs! "ignore", cs! "fixable", cs! "unfixable", cs! "include", cs! "exclude", cs! "default-exclude",
   cs! "assignment", cs! "duplicated_arguments", cs! "implicit_assignment", cs! "undesirable_function", cs! "unreachable_code",
   cs! "unused_function"]

/-- `[lint]` asks for these settings. -/
structure LintMeans (isRegex : Str → Bool) (t : TomlTable) (s : JarlSettings) : Prop where
  keys : Keys documentedKeys t
  select : Setting IsList t (cs! "select") s.linter.select
  extendSelect : Setting IsList t (cs! "extend-select") s.linter.extendSelect
  ignore : Setting IsList t (cs! "ignore") s.linter.ignore
  fixable : Setting IsList t (cs! "fixable") s.linter.fixable
  unfixable : Setting IsList t (cs! "unfixable") s.linter.unfixable
  incl : Setting IsList t (cs! "include") s.incl
  excl : Setting IsList t (cs! "exclude") s.excl
  defaultExclude : Setting IsBool t (cs! "default-exclude") s.defaultExclude
  assignment : Assignment t s.assignment s.deprecatedAssignment
  dup : Functions t (cs! "duplicated_arguments") (cs! "skipped-functions")
    [cs! "c", cs! "mutate", cs! "summarize", cs! "transmute"] s.dupSkipped
  implicit : Functions t (cs! "implicit_assignment") (cs! "skipped-functions")
    [cs! "expect_error", cs! "expect_warning", cs! "expect_message", cs! "expect_snapshot", cs! "quote", cs! "suppressMessages",
     cs! "suppressWarnings"] s.implicitSkipped
  undesirable : Functions t (cs! "undesirable_function") (cs! "functions") [cs! "browser"] s.undesirable
  unreachable : Functions t (cs! "unreachable_code") (cs! "stopping-functions")
    [cs! "stop", cs! ".Defunct", cs! "abort", cs! "cli_abort", cs! "q", cs! "quit"] s.stopping
  unused : UnusedMeans isRegex t s.threshold s.skipped

/-- The document asks for these settings. -/
def Means (isRegex : Str → Bool) (doc : TomlTable) (s : JarlSettings) : Prop :=
  Keys [cs! "lint"] doc ∧ ∃ t, Sub doc (cs! "lint") t ∧ LintMeans isRegex t s

/-- The same settings: lists of functions are sets. -/
structure SameSettings (a b : JarlSettings) : Prop where
  linter : a.linter = b.linter
  incl : a.incl = b.incl
  excl : a.excl = b.excl
  defaultExclude : a.defaultExclude = b.defaultExclude
  deprecatedAssignment : a.deprecatedAssignment = b.deprecatedAssignment
  assignment : a.assignment = b.assignment
  dup : ∀ f, f ∈ a.dupSkipped ↔ f ∈ b.dupSkipped
  implicit : ∀ f, f ∈ a.implicitSkipped ↔ f ∈ b.implicitSkipped
  undesirable : ∀ f, f ∈ a.undesirable ↔ f ∈ b.undesirable
  stopping : ∀ f, f ∈ a.stopping ↔ f ∈ b.stopping
  threshold : a.threshold = b.threshold
  skipped : a.skipped = b.skipped

/-- The `HashMap` names one of its keys, if it has any. -/
def Fair (first : List Str → Option Str) : Prop := ∀ l, (∀ k, first l = some k → k ∈ l) ∧ (first l = none → l = [])

/-- What each refusal says is true of the document. -/
def Justified (isRegex : Str → Bool) (doc : TomlTable) : TomlFail → Prop
  | .panic => False
  | .parse => ¬ ∃ s, Means isRegex doc s
  | .unknownField k => ∃ t v, (cs! "lint", .table t) ∈ doc ∧ (k, v) ∈ t ∧ k ∉ documentedKeys
  | .operator w => (∃ t, (cs! "lint", .table t) ∈ doc ∧ ((cs! "assignment", .str w) ∈ t ∨
      ∃ s, (cs! "assignment", .table s) ∈ t ∧ (cs! "operator", .str w) ∈ s)) ∧ w ≠ cs! "<-" ∧ w ≠ cs! "="
  | .both rule => ∃ t s name v w, (cs! "lint", .table t) ∈ doc ∧ (rule, .table s) ∈ t ∧ (name, v) ∈ s ∧ (cs! "extend-" ++ name, w) ∈ s
  | .regex p => ∃ t s, ∃ l : List Str, (cs! "lint", .table t) ∈ doc ∧ (cs! "unused_function", .table s) ∈ t ∧
      (cs! "skipped-functions", .array (l.map .str)) ∈ s ∧ p ∈ l ∧ isRegex p = false

end Jarl.Spec
