import Verif.Diagnostic

/-!
# The part of R's syntax that the control-flow analysis looks at

jarl's `unreachable_code` rule (crates/jarl-core/src/lints/base/unreachable_code) works on the
concrete syntax tree of a function body or of a file.  Only a few node kinds matter to it
(cfg/builder.rs:229-313 and cfg/builder.rs:37-116); every other node is opaque.
-/

namespace Jarl

/-- The shape of an `if`/`while` condition, as seen by `evaluate_constant_condition`
(cfg/builder.rs:37-116): literals `TRUE`/`FALSE`, parentheses, the four logical operators, and
anything else (`atom`, identified by its text range). -/
inductive Cond
  | tru
  | fls
  | paren (c : Cond)
  | or (a b : Cond)
  | or2 (a b : Cond)
  | and (a b : Cond)
  | and2 (a b : Cond)
  | atom (r : Range)
deriving Repr, DecidableEq

/-- A statement, with the trimmed text range of its node (`text_trimmed_range`).  Node kinds are
those distinguished by `build_statement` (cfg/builder.rs:229-313).  `call r f` is an `R_CALL` whose
first child has the text `f`; `braced` is `{ ... }`; `other` is every other node.  An `if` with no
`else` is `ifThen`.  Simplification: only trees produced by a successful parse are considered (jarl
refuses files with parse errors before linting, check.rs), so an `if` or a loop always has its
condition and its body. -/
inductive Stmt
  | brk (r : Range)
  | nxt (r : Range)
  | ret (r : Range)
  | call (r : Range) (callee : Str)
  | ifThen (r : Range) (k : Cond) (t : Stmt)
  | ifElse (r : Range) (k : Cond) (t e : Stmt)
  | fors (r : Range) (b : Stmt)
  | whiles (r : Range) (k : Cond) (b : Stmt)
  | repeats (r : Range) (b : Stmt)
  | braced (r : Range) (ss : List Stmt)
  | other (r : Range)
deriving Repr

/-- `node.text_trimmed_range()`. -/
def Stmt.range : Stmt → Range
  | .brk r | .nxt r | .ret r | .call r _ | .ifThen r _ _ | .ifElse r _ _ _ | .fors r _
  | .whiles r _ _ | .repeats r _ | .braced r _ | .other r => r

end Jarl
