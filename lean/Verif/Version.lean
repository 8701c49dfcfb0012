import Verif.Rules
/-!
# Version: R version strings (config.rs:543-568)
-/

namespace Jarl

/-- Value of an ASCII digit, as used by Rust's `u32::from_str` (radix 10). -/
def digitVal (c : Char) : Option Nat :=
  if 48 ≤ c.toNat ∧ c.toNat ≤ 57 then some (c.toNat - 48) else none

/-- The digit loop of Rust `u32::from_str`: multiply-and-add with overflow checks. -/
def parseDigits : Nat → Str → Option Nat
  | acc, [] => some acc
  | acc, c :: cs =>
    match digitVal c with
    | none => none
    | some d =>
      if acc * 10 < 4294967296 ∧ acc * 10 + d < 4294967296 then parseDigits (acc * 10 + d) cs
      else none

/-- Rust `str::parse::<u32>` (used at config.rs:553-561): empty input and a lone sign are errors, one
leading `+` is accepted, `-` is not. -/
def parseU32 (s : Str) : Option Nat :=
  match s with
  | [] => none
  | [c] => if c = '+' then none else parseDigits 0 [c]
  | c :: cs => if c = '+' then parseDigits 0 cs else parseDigits 0 (c :: cs)

/-- config.rs:543-568 `parse_r_version`. `none` is `Err`. -/
def parseRVersion (s : Str) : Option RVersion :=
  match splitOn '.' s with
  | [a, b] => do
    let x ← parseU32 a
    let y ← parseU32 b
    return ⟨x, y, 0⟩
  | [a, b, c] => do
    let x ← parseU32 a
    let y ← parseU32 b
    let z ← parseU32 c
    return ⟨x, y, z⟩
  | _ => none

end Jarl
