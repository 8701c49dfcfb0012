import Verif.Stmt

/-!
# What R does with a sequence of statements

An execution semantics of R's control flow, independent of jarl's control-flow graph.  Everything
that is not control flow is left to an arbitrary interpretation over an arbitrary type `σ` of
machine states: opaque statements and calls may complete, raise an error, return, break or next;
opaque conditions may have any value; loops may run any number of times.
-/

namespace Jarl.Spec

open Jarl

/-- How a statement ends. -/
inductive Outcome
  | normal | brk | nxt | ret | stop
deriving DecidableEq, Repr

/-- A logical vector: `none` is `NA`. -/
abbrev RLgl := List (Option Bool)

/-- What the parts of the program without control flow do.  Ranges identify program points. -/
structure Interp (σ : Type) where
  /-- How an opaque statement or a call may end. -/
  leaf : Range → σ → Outcome → σ → Prop
  /-- The values of an opaque condition. -/
  cond : Range → σ → RLgl → σ → Prop
  /-- Whether the `for` loop at this place starts another iteration. -/
  iter : Range → σ → Bool → σ → Prop
  /-- The condition (or the sequence) of the `if` or loop at this place ends the statement. -/
  fails : Range → σ → Outcome → σ → Prop

/-- R's `NA`-aware "or". -/
def or3 : Option Bool → Option Bool → Option Bool
  | some true, _ | _, some true => some true
  | some false, some false => some false
  | _, _ => none

/-- R's `NA`-aware "and". -/
def and3 : Option Bool → Option Bool → Option Bool
  | some false, _ | _, some false => some false
  | some true, some true => some true
  | _, _ => none

/-- `z` is the element-wise result of a vectorised operator: empty if an operand is empty, otherwise
as long as the longest operand, the shortest being recycled. -/
def Elementwise (f : Option Bool → Option Bool → Option Bool) (x y z : RLgl) : Prop :=
  if x = [] ∨ y = [] then z = []
  else z.length = max x.length y.length ∧
    ∀ i, i < z.length → z[i]? = some (f (x.getD (i % x.length) none) (y.getD (i % y.length) none))

/-- The first element, `NA` if there is none. -/
def firstOf (x : RLgl) : Option Bool := x.headD none

/-- Evaluation of a condition to a logical vector.  `||` and `&&` look at the first element of each
operand and do not evaluate the second one when the first decides; evaluations that raise an error
have no value. -/
inductive Eval {σ : Type} (I : Interp σ) : Cond → σ → RLgl → σ → Prop
  | tru : Eval I .tru s [some true] s
  | fls : Eval I .fls s [some false] s
  | paren : Eval I c s v s' → Eval I (.paren c) s v s'
  | or : Eval I a s x s1 → Eval I b s1 y s2 → Elementwise or3 x y z → Eval I (.or a b) s z s2
  | and : Eval I a s x s1 → Eval I b s1 y s2 → Elementwise and3 x y z → Eval I (.and a b) s z s2
  | or2Left : Eval I a s x s1 → firstOf x = some true → Eval I (.or2 a b) s [some true] s1
  | or2 : Eval I a s x s1 → firstOf x ≠ some true → Eval I b s1 y s2 →
      Eval I (.or2 a b) s [or3 (firstOf x) (firstOf y)] s2
  | and2Left : Eval I a s x s1 → firstOf x = some false → Eval I (.and2 a b) s [some false] s1
  | and2 : Eval I a s x s1 → firstOf x ≠ some false → Eval I b s1 y s2 →
      Eval I (.and2 a b) s [and3 (firstOf x) (firstOf y)] s2
  | atom : I.cond r s v s' → Eval I (.atom r) s v s'

/-- The condition evaluates and its first element is `v` (an empty vector or `NA` is an error). -/
def Decides {σ : Type} (I : Interp σ) (k : Cond) (v : Bool) (s s' : σ) : Prop :=
  ∃ x, Eval I k s x s' ∧ firstOf x = some v

/-- `n` is the function name in the callee text `f`: `f` itself, or what follows the last `::`. -/
def LastName (f n : Str) : Prop :=
  (f = n ∧ ¬ (cs! "::") <:+: n) ∨ (∃ p, f = p ++ cs! "::" ++ n ∧ ¬ (cs! "::") <:+: (':' :: n))

/-- A call to `return`, to `break`/`next` written as calls, or to one of the functions of `stop`,
possibly with a namespace. -/
def EndingCall (stop : List Str) (f : Str) : Prop :=
  ∃ n, LastName f n ∧ (n = cs! "return" ∨ n = cs! "break" ∨ n = cs! "next" ∨ n ∈ stop)

/-- The statements of a branch, of a loop body or of a function body. -/
def bodyList : Stmt → List Stmt
  | .braced _ ss => ss
  | s => [s]

/-- `L` is a loop at place `r` with body `b`. -/
inductive IsLoop : Stmt → Range → Stmt → Prop
  | fors : IsLoop (.fors r b) r b
  | whiles : IsLoop (.whiles r k b) r b
  | repeats : IsLoop (.repeats r b) r b

/-- The loop starts another iteration of its body. -/
inductive Enter {σ : Type} (I : Interp σ) : Stmt → σ → σ → Prop
  | fors : I.iter r s true s' → Enter I (.fors r b) s s'
  | whiles : Decides I k true s s' → Enter I (.whiles r k b) s s'
  | repeats : Enter I (.repeats r b) s s

/-- The loop ends without starting another iteration. -/
inductive Leave {σ : Type} (I : Interp σ) : Stmt → σ → σ → Prop
  | fors : I.iter r s false s' → Leave I (.fors r b) s s'
  | whiles : Decides I k false s s' → Leave I (.whiles r k b) s s'

/-- How a loop ends when its body (or its condition) ends with this outcome. -/
def loopOutcome : Outcome → Outcome
  | .brk => .normal
  | o => o

mutual
/-- `Exec stop I st s o s'`: executing statement `st` in state `s` ends with outcome `o` in state
`s'`.  `stop` is the list of functions that never return to their caller. -/
inductive Exec {σ : Type} (stop : List Str) (I : Interp σ) : Stmt → σ → Outcome → σ → Prop
  | brk : Exec stop I (.brk r) s .brk s
  | nxt : Exec stop I (.nxt r) s .nxt s
  /-- `return` without parentheses is only the function: nothing is returned. -/
  | ret : Exec stop I (.ret r) s .normal s
  | other : I.leaf r s o s' → Exec stop I (.other r) s o s'
  /-- A call to `return`, `stop`, ... does not complete normally. -/
  | call : I.leaf r s o s' → (EndingCall stop f → o ≠ .normal) → Exec stop I (.call r f) s o s'
  | braced : ExecSeq stop I ss s o s' → Exec stop I (.braced r ss) s o s'
  | ifThenTrue : Decides I k true s s1 → ExecSeq stop I (bodyList t) s1 o s' →
      Exec stop I (.ifThen r k t) s o s'
  | ifThenFalse : Decides I k false s s' → Exec stop I (.ifThen r k t) s .normal s'
  | ifThenFails : I.fails r s o s' → o ≠ .normal → Exec stop I (.ifThen r k t) s o s'
  | ifElseTrue : Decides I k true s s1 → ExecSeq stop I (bodyList t) s1 o s' →
      Exec stop I (.ifElse r k t e) s o s'
  | ifElseFalse : Decides I k false s s1 → ExecSeq stop I (bodyList e) s1 o s' →
      Exec stop I (.ifElse r k t e) s o s'
  | ifElseFails : I.fails r s o s' → o ≠ .normal → Exec stop I (.ifElse r k t e) s o s'
  | loopLeave : IsLoop L r b → Leave I L s s' → Exec stop I L s .normal s'
  | loopEnds : IsLoop L r b → Enter I L s s1 → ExecSeq stop I (bodyList b) s1 o s' →
      o = .brk ∨ o = .ret ∨ o = .stop → Exec stop I L s (loopOutcome o) s'
  | loopAgain : IsLoop L r b → Enter I L s s1 → ExecSeq stop I (bodyList b) s1 o s2 →
      o = .normal ∨ o = .nxt → Exec stop I L s2 o' s' → Exec stop I L s o' s'
  | loopFails : IsLoop L r b → I.fails r s o s' → o = .brk ∨ o = .ret ∨ o = .stop →
      Exec stop I L s (loopOutcome o) s'
/-- Executing statements in sequence. -/
inductive ExecSeq {σ : Type} (stop : List Str) (I : Interp σ) : List Stmt → σ → Outcome → σ → Prop
  | nil : ExecSeq stop I [] s .normal s
  | abrupt : Exec stop I st s o s' → o ≠ .normal → ExecSeq stop I (st :: ss) s o s'
  | cons : Exec stop I st s .normal s1 → ExecSeq stop I ss s1 o s' → ExecSeq stop I (st :: ss) s o s'
end

mutual
/-- `Inside stop I st s l`: during the execution of `st` started in state `s`, a block inside `st` is
about to execute the first statement of `l`, the rest of `l` being the rest of that block. -/
inductive Inside {σ : Type} (stop : List Str) (I : Interp σ) : Stmt → σ → List Stmt → Prop
  | braced : Reaches stop I ss s l → Inside stop I (.braced r ss) s l
  | ifThen : Decides I k true s s1 → Reaches stop I (bodyList t) s1 l → Inside stop I (.ifThen r k t) s l
  | ifElseTrue : Decides I k true s s1 → Reaches stop I (bodyList t) s1 l →
      Inside stop I (.ifElse r k t e) s l
  | ifElseFalse : Decides I k false s s1 → Reaches stop I (bodyList e) s1 l →
      Inside stop I (.ifElse r k t e) s l
  | loop : IsLoop L r b → Enter I L s s1 → Reaches stop I (bodyList b) s1 l → Inside stop I L s l
  | loopAgain : IsLoop L r b → Enter I L s s1 → ExecSeq stop I (bodyList b) s1 o s2 →
      o = .normal ∨ o = .nxt → Inside stop I L s2 l → Inside stop I L s l
/-- `Reaches stop I ss s l`: executing the sequence `ss` from state `s` gets to a point (in `ss` or in
a nested block) where the first statement of `l` is about to be executed, the rest of `l` being what
remains of its block.  Executions need not terminate. -/
inductive Reaches {σ : Type} (stop : List Str) (I : Interp σ) : List Stmt → σ → List Stmt → Prop
  | here : Reaches stop I (st :: ss) s (st :: ss)
  | inside : Inside stop I st s l → Reaches stop I (st :: ss) s l
  | later : Exec stop I st s .normal s1 → Reaches stop I ss s1 l → Reaches stop I (st :: ss) s l
end

/-- The statement at range `q` is executed in some run of the block `ss`: for some state space, some
interpretation and some initial state. -/
def Executable (stop : List Str) (ss : List Stmt) (q : Stmt) : Prop :=
  ∃ (σ : Type) (I : Interp σ) (s : σ) (rest : List Stmt), Reaches stop I ss s (q :: rest)

mutual
/-- The layout a parser gives to statements: nonempty ranges, sub-statements inside and after the
first token of their parent, in order and disjoint. -/
def Laid : Stmt → Prop
  | .ifThen r _ t => r.start < t.range.start ∧ t.range.stop ≤ r.stop ∧ Laid t
  | .ifElse r _ t e => r.start < t.range.start ∧ t.range.stop ≤ e.range.start ∧ e.range.stop ≤ r.stop ∧
      Laid t ∧ Laid e
  | .fors r b | .whiles r _ b | .repeats r b => r.start < b.range.start ∧ b.range.stop ≤ r.stop ∧ Laid b
  | .braced r ss => LaidSeq (r.start + 1) r.stop ss
  | .brk r | .nxt r | .ret r | .call r _ | .other r => r.start < r.stop
/-- Statements laid out in order between two offsets. -/
def LaidSeq : Nat → Nat → List Stmt → Prop
  | lo, hi, [] => lo ≤ hi
  | lo, hi, s :: ss => lo ≤ s.range.start ∧ Laid s ∧ LaidSeq s.range.stop hi ss
end

/-- A `return` written without parentheses somewhere in a block that the analysis visits. -/
inductive BareReturn : List Stmt → Prop
  | here : Stmt.ret r ∈ ss → BareReturn ss
  | ifThen : Stmt.ifThen r k t ∈ ss → BareReturn (bodyList t) → BareReturn ss
  | ifElseT : Stmt.ifElse r k t e ∈ ss → BareReturn (bodyList t) → BareReturn ss
  | ifElseE : Stmt.ifElse r k t e ∈ ss → BareReturn (bodyList e) → BareReturn ss
  | loop : L ∈ ss → IsLoop L r b → BareReturn (bodyList b) → BareReturn ss

/-- A `{ }` block used as a statement somewhere in a block that the analysis visits. -/
inductive BareBlock : List Stmt → Prop
  | here : Stmt.braced r ts ∈ ss → BareBlock ss
  | ifThen : Stmt.ifThen r k t ∈ ss → BareBlock (bodyList t) → BareBlock ss
  | ifElseT : Stmt.ifElse r k t e ∈ ss → BareBlock (bodyList t) → BareBlock ss
  | ifElseE : Stmt.ifElse r k t e ∈ ss → BareBlock (bodyList e) → BareBlock ss
  | loop : L ∈ ss → IsLoop L r b → BareBlock (bodyList b) → BareBlock ss

end Jarl.Spec
