import Verif.Rules
/-!
# Specification for C25: R version strings
-/
namespace Jarl.Spec

/-- The value of a string of decimal digits. -/
def decimalValue (s : Str) : Nat := s.foldl (fun n c => 10 * n + (c.toNat - '0'.toNat)) 0

/-- `s` writes the number `n` in decimal, with an optional leading `+` (Rust's `u32::from_str`), and `n`
fits 32 bits. -/
def Component (s : Str) (n : Nat) : Prop :=
  ∃ d : Str, (s = d ∨ s = '+' :: d) ∧ d ≠ [] ∧ (∀ c ∈ d, '0' ≤ c ∧ c ≤ '9') ∧
    n = decimalValue d ∧ n < 2 ^ 32

/-- `s` is `x.y` or `x.y.z`. -/
def IsVersion (s : Str) (v : RVersion) : Prop :=
  (∃ a b, s = a ++ '.' :: b ∧ Component a v.major ∧ Component b v.minor ∧ v.patch = 0) ∨
  (∃ a b c, s = a ++ '.' :: (b ++ '.' :: c) ∧
    Component a v.major ∧ Component b v.minor ∧ Component c v.patch)

end Jarl.Spec
