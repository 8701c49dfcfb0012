import Verif.Text
/-!
# Fix: applying fixes to a text (fix.rs, diagnostic.rs:10-30)
-/

namespace Jarl

/-- diagnostic.rs:12-19 `Fix`. `stop` is the Rust field `end`. -/
structure Fix where
  content : Str
  start : Nat
  stop : Nat
  toSkip : Bool := false
  deriving DecidableEq, Repr

/-- diagnostic.rs:22-29 `Fix::empty`. -/
def Fix.empty : Fix := ⟨[], 0, 0, true⟩

/-- Rust `String::replace_range(a..b, new)`; `none` = panic (bad range or not a char boundary). -/
def replaceRange (s : Str) (a b : Nat) (new : Str) : Option Str :=
  if b < a then none else
  match splitAtByte a s with
  | none => none
  | some (p, r) => match splitAtByte (b - a) r with
    | none => none
    | some (_, q) => some (p ++ new ++ q)

/-- Loop state of `apply_fixes` (fix.rs:31-36). `i32` is modelled by `Int` (files under 2 GiB). -/
structure FixState where
  content : Str
  lastPos : Int
  skipped : Bool
  newLen : Int

/-- One iteration, fix.rs:38-62. A negative `start as usize` is an out-of-range index: panic. -/
def fixStep (oldLen : Int) (st : FixState) (f : Fix) : Option FixState :=
  let diff := st.newLen - oldLen
  let start : Int := (f.start : Int) + diff
  let stop : Int := (f.stop : Int) + diff
  if start < st.lastPos then some { st with skipped := true }
  else if start < 0 ∨ stop < 0 then none
  else match replaceRange st.content start.toNat stop.toNat f.content with
    | none => none
    | some c => some { content := c, lastPos := stop + diff, skipped := st.skipped,
                       newLen := (c.length : Int) }

/-- The loop fix.rs:38-62. -/
def fixLoop (oldLen : Int) : List Fix → FixState → Option FixState
  | [], st => some st
  | f :: fs, st => match fixStep oldLen st f with
    | none => none
    | some st' => fixLoop oldLen fs st'

/-- fix.rs:24-65 `apply_fixes`: `(has_skipped_fixes, new_content)`; `none` = panic. -/
def applyFixes (fixes : List Fix) (contents : Str) : Option (Bool × Str) :=
  let n : Int := contents.length
  match fixLoop n fixes ⟨contents, 0, false, n⟩ with
  | none => none
  | some st => some (st.skipped, st.content)

end Jarl
