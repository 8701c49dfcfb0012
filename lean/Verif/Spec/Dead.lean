import Verif.Spec.Exec

/-!
# Code that is visibly dead

A syntactic description, independent of the control-flow graph, of the code that the
`unreachable_code` rule is documented to report: code after a jump, code after an `if`/`else` whose
branches all jump, and branches excluded by a constant condition.
-/

namespace Jarl.Spec

open Jarl

/-- The condition has this value in some run. -/
def Can (k : Cond) (v : Bool) : Prop := ∃ (σ : Type) (I : Interp σ) (s s' : σ), Decides I k v s s'

/-- The ways to leave a block. -/
inductive Cause
  | ret | stop | brk | nxt
deriving DecidableEq, Repr

/-- The statement jumps.  The flag says whether it is inside of a loop.  `return` without parentheses
is here because jarl counts it as a jump. -/
inductive Jump (stop : List Str) : Bool → Stmt → Cause → Prop
  | bare : Jump stop l (.ret r) .ret
  | ret : LastName f (cs! "return") → Jump stop l (.call r f) .ret
  | stop : LastName f n → n ∈ stop → n ≠ cs! "return" → n ≠ cs! "break" → n ≠ cs! "next" →
      Jump stop l (.call r f) .stop
  | brk : Jump stop true (.brk r) .brk
  | brkCall : LastName f (cs! "break") → Jump stop true (.call r f) .brk
  | nxt : Jump stop true (.nxt r) .nxt
  | nxtCall : LastName f (cs! "next") → Jump stop true (.call r f) .nxt

mutual
/-- The statement jumps, or is an `if`/`else` with a jump in each branch that can be taken. -/
inductive Ends (stop : List Str) : Bool → Stmt → Prop
  | jump : Jump stop l x c → Ends stop l x
  | ifElse : (Can k true → EndsL stop l (bodyList t)) → (Can k false → EndsL stop l (bodyList e)) →
      Ends stop l (.ifElse r k t e)
/-- A statement of the block ends it. -/
inductive EndsL (stop : List Str) : Bool → List Stmt → Prop
  | here : Ends stop l x → EndsL stop l (x :: ss)
  | later : EndsL stop l ss → EndsL stop l (x :: ss)
end

mutual
/-- `DeadIn stop l y x`: statement `x`, in a block of statement `y`, is visibly dead. -/
inductive DeadIn (stop : List Str) : Bool → Stmt → Stmt → Prop
  | ifThen : Dead stop l (bodyList t) x → DeadIn stop l (.ifThen r k t) x
  | ifElseT : Dead stop l (bodyList t) x → DeadIn stop l (.ifElse r k t e) x
  | ifElseE : Dead stop l (bodyList e) x → DeadIn stop l (.ifElse r k t e) x
  | loop : IsLoop L r b → Dead stop true (bodyList b) x → DeadIn stop l L x
  | never : ¬ Can k true → DeadIn stop l (.ifThen r k t) t
  | neverT : ¬ Can k true → DeadIn stop l (.ifElse r k t e) t
  | neverE : ¬ Can k false → DeadIn stop l (.ifElse r k t e) e
/-- `Dead stop l ss x`: statement `x` of the block `ss`, or of a block inside, is visibly dead. -/
inductive Dead (stop : List Str) : Bool → List Stmt → Stmt → Prop
  | after : Ends stop l y → x ∈ ss → Dead stop l (y :: ss) x
  | inside : DeadIn stop l y x → Dead stop l (y :: ss) x
  | later : Dead stop l ss x → Dead stop l (y :: ss) x
end

mutual
/-- As `At`, in a block of a statement. -/
inductive AtIn (stop : List Str) : Bool → Stmt → Bool → List Stmt → Prop
  | ifThen : Can k true → At stop l (bodyList t) m z → AtIn stop l (.ifThen r k t) m z
  | ifElseT : Can k true → At stop l (bodyList t) m z → AtIn stop l (.ifElse r k t e) m z
  | ifElseE : Can k false → At stop l (bodyList e) m z → AtIn stop l (.ifElse r k t e) m z
  | loop : IsLoop L r b → At stop true (bodyList b) m z → AtIn stop l L m z
/-- `At stop l ss m z`: the block `ss` contains, itself or in a block inside, the consecutive
statements `z`, and nothing visible prevents the first of them from being executed; `m` says whether
this place is inside of a loop. -/
inductive At (stop : List Str) : Bool → List Stmt → Bool → List Stmt → Prop
  | here : At stop l (x :: ss) l (x :: ss)
  | inside : AtIn stop l y m z → At stop l (y :: ss) m z
  | later : ¬ Ends stop l y → At stop l ss m z → At stop l (y :: ss) m z
end

/-- The message for code after a jump (documentation of the rule). -/
def Cause.message : Cause → Str
  | .ret => cs! "This code is unreachable because it appears after a return statement."
  | .stop => cs! "This code is unreachable because it appears after a `stop()` statement (or equivalent)."
  | .brk => cs! "This code is unreachable because it appears after a break statement."
  | .nxt => cs! "This code is unreachable because it appears after a next statement."

end Jarl.Spec
