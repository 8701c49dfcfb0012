import Verif.Spec.Package
/-!
# Specification: where a function that is never called is looked for (C49, the message)
-/
namespace Jarl.Spec
open Jarl

/-- At the component number `i` of the path begins a directory of tests: `tests/`, `inst/tinytest/` or `inst/tests/`. -/
def TestDirAt (path : List Str) (i : Nat) (d : Str) : Prop :=
  (path[i]? = some (cs! "tests") ∧ d = cs! "tests/") ∨ (path[i]? = some (cs! "inst") ∧ path[i + 1]? = some (cs! "tinytest") ∧ d = cs! "inst/tinytest/") ∨
    (path[i]? = some (cs! "inst") ∧ path[i + 1]? = some (cs! "tests") ∧ d = cs! "inst/tests/")

/-- The first directory of tests on the path; `tests/` if there is none. -/
def ScopeOf (path : List Str) (d : Str) : Prop :=
  (∃ i, TestDirAt path i d ∧ ∀ j < i, ∀ d', ¬ TestDirAt path j d') ∨ (d = cs! "tests/" ∧ ∀ j d', ¬ TestDirAt path j d')

end Jarl.Spec
