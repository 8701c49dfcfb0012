import Verif.Config
/-!
# Specification for C01-C06 (independent of the helpers of the model)
-/

namespace Jarl

namespace Spec

/-- An item of a rule list stands for rule `r`: by its name, by one of its groups, or by `ALL`. -/
def Denotes (item : Str) (r : Rule) : Prop :=
  trim item = r.name ∨ trim item = cs! "ALL" ∨ ∃ c ∈ r.categories, trim item = c.name

/-- A list of items stands for rule `r`. -/
def Names (items : List Str) (r : Rule) : Prop := ∃ i ∈ items, Denotes i r

/-- An item is a rule name, a group or `ALL`. -/
def Known (item : Str) : Prop :=
  (∃ r : Rule, trim item = r.name) ∨ (∃ c : Category, trim item = c.name) ∨ trim item = cs! "ALL"

/-- A comma-separated command line value; the empty value means "not given". -/
def cliItems (s : Str) : Option (List Str) := if s = [] then none else some (splitOn ',' s)

/-- The value given for a list: the command line, else the TOML file. -/
def given (cli : Str) (toml : Option LinterSettings) (field : LinterSettings → Option (List Str)) :
    Option (List Str) :=
  match cliItems cli with
  | some l => some l
  | none => toml.bind field

/-- Rules ignored by the command line or by the TOML file. -/
def Ignored (args : ArgsConfig) (toml : Option LinterSettings) (r : Rule) : Prop :=
  (∃ l, cliItems args.ignore = some l ∧ Names l r) ∨
  (∃ s l, toml = some s ∧ s.ignore = some l ∧ Names l r)

/-- (select or default) + extend-select - ignore. -/
def Selected (args : ArgsConfig) (toml : Option LinterSettings) (r : Rule) : Prop :=
  ((match given args.select toml (·.select) with
    | some l => Names l r
    | none => r.enabledByDefault = true) ∨
   (∃ l, given args.extendSelect toml (·.extendSelect) = some l ∧ Names l r)) ∧
  ¬ Ignored args toml r

/-- `a ≤ b` for R versions, spelled out. -/
def VersionLe (a b : RVersion) : Prop :=
  a.major < b.major ∨ (a.major = b.major ∧ (a.minor < b.minor ∨
    (a.minor = b.minor ∧ a.patch ≤ b.patch)))

/-- The version gate. -/
def VersionOk (v : Option RVersion) (r : Rule) : Prop :=
  match r.minVersion with
  | none => True
  | some rv => ∃ pv, v = some pv ∧ VersionLe rv pv

/-- All rule lists the user wrote (command line and TOML). -/
def UserItem (args : ArgsConfig) (toml : Option LinterSettings) (i : Str) : Prop :=
  (∃ l, (cliItems args.select = some l ∨ cliItems args.extendSelect = some l ∨
         cliItems args.ignore = some l) ∧ i ∈ l) ∨
  (∃ s l, toml = some s ∧ (s.select = some l ∨ s.extendSelect = some l ∨ s.ignore = some l ∨
         s.fixable = some l ∨ s.unfixable = some l) ∧ i ∈ l)

end Spec


end Jarl
