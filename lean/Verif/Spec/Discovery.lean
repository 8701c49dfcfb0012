import Verif.Discovery
/-!
# Specification: the nearest configuration file
-/
namespace Jarl.Spec
open Jarl

/-- `d` is the closest directory above `f` that contains a configuration file. -/
def Nearest {S} (fs : ConfigFs S) (d f : DPath) : Prop :=
  d <+: f ∧ fs.toml d ≠ none ∧ ∀ e, e <+: f → fs.toml e ≠ none → e.length ≤ d.length

/-- No directory above `f` contains a configuration file. -/
def NoConfigAbove {S} (fs : ConfigFs S) (f : DPath) : Prop := ∀ e, e <+: f → fs.toml e = none

/-- `f` is found by looking into `p`: every directory between `p` and `f` that has a configuration file is listed
(it is not hidden and not ignored by git). -/
def FoundUnder {S} (fs : ConfigFs S) (p f : DPath) : Prop :=
  p <+: f ∧ ∀ e, p <+: e → e ≠ p → e <+: f → fs.toml e ≠ none → e ∈ fs.walk p

/-- `f` is not inside the user's configuration directory. -/
def OutsideUserDir {S} (fs : ConfigFs S) (f : DPath) : Prop := ∀ c, fs.userDir = some c → ¬ c <+: f

end Jarl.Spec
