import Verif.Fix
import Verif.Rules
/-!
# Diagnostic: what jarl reports (crates/jarl-core/src/diagnostic.rs)
-/
namespace Jarl

/-- biome `TextRange`: byte offsets, `start ≤ stop` is an invariant of the Rust type. -/
structure Range where
  start : Nat
  stop : Nat
deriving DecidableEq, Repr

/-- biome `TextRange::contains_range`. -/
def Range.contains (a b : Range) : Bool := a.start ≤ b.start && b.stop ≤ a.stop

/-- biome `TextRange::new`: panics (`none`) when the bounds are swapped. -/
def Range.new (a b : Nat) : Option Range := if a ≤ b then some ⟨a, b⟩ else none

/-- diagnostic.rs:44-62 `ViolationData` and `Diagnostic`. Paths are strings. -/
structure Diagnostic where
  name : Str
  body : Str
  suggestion : Option Str
  filename : Str
  range : Range
  location : Option (Nat × Nat)
  fix : Fix
deriving DecidableEq, Repr

/-- diagnostic.rs:87-96 `Diagnostic::new`. -/
def Diagnostic.new (name body : Str) (suggestion : Option Str) (range : Range) (fix : Fix) : Diagnostic :=
  ⟨name, body, suggestion, [], range, none, fix⟩

/-- diagnostic.rs:109-116 `has_safe_fix`. -/
def Diagnostic.hasSafeFix (d : Diagnostic) : Bool :=
  if d.fix.toSkip || d.fix.content.isEmpty then false
  else match Rule.fromName d.name with
    | some r => decide (r.fixStatus = .safe)
    | none => false

/-- diagnostic.rs:117-124 `has_unsafe_fix`. -/
def Diagnostic.hasUnsafeFix (d : Diagnostic) : Bool :=
  if d.fix.toSkip || d.fix.content.isEmpty then false
  else match Rule.fromName d.name with
    | some r => decide (r.fixStatus = .unsafe_)
    | none => false

/-- diagnostic.rs:125-132 `has_no_fix`. -/
def Diagnostic.hasNoFix (d : Diagnostic) : Bool :=
  if d.fix.toSkip then true
  else match Rule.fromName d.name with
    | some r => decide (r.fixStatus = .none)
    | none => true

end Jarl
