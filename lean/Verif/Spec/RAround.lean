import Verif.Spec.RValue
/-!
# Specification: fixes in larger code

What the code around a fix computes, when it is made of the operators and functions that `Spec/RValue` describes.
-/
namespace Jarl.Spec
open Jarl

/-- The operators described. -/
def describedOp (o : Op) : Bool := o ∈ [.lt, .le, .gt, .ge, .eq2, .ne, .and2, .or2, .colon, .plus, .minus, .special (cs! "in"), .special (cs! "||")]

/-- The functions described. -/
def describedFns : List Str :=
  [cs! "any", cs! "all", cs! "is.na", cs! "anyNA", cs! "is.nan", cs! "duplicated", cs! "anyDuplicated", cs! "length", cs! "levels", cs! "nlevels", cs! "ifelse", cs! "is.null", cs! "is.numeric",
   cs! "is.integer", cs! "class", cs! "inherits", cs! "identical", cs! "lengths", cs! "sapply", cs! "vapply", cs! "seq_along", cs! "seq_len", cs! "seq", cs! "which", cs! "grepl", cs! "grep",
   cs! "sample", cs! "sample.int", cs! "order", cs! "sort", cs! "nchar", cs! "substr", cs! "startsWith", cs! "endsWith"]

/-- The path from a place up, through described code only. `args`: the place is in a list of arguments (a part of it or one argument with its name). -/
def describedPath : (args : Bool) → List Frame → Bool
  | false, [] => true
  | false, .paren _ _ :: fs => describedPath false fs
  | false, .un _ o :: fs => o = .bang && describedPath false fs
  | false, .binL _ o _ :: fs => describedOp o && describedPath false fs
  | false, .binR _ _ o :: fs => describedOp o && describedPath false fs
  | false, .ifC .. :: fs => describedPath false fs
  | false, .ifT .. :: fs => describedPath false fs
  | false, .ieC .. :: fs => describedPath false fs
  | false, .ieT .. :: fs => describedPath false fs
  | false, .ieE .. :: fs => describedPath false fs
  | false, .sconsE _ .snil :: .braces _ _ :: fs => describedPath false fs
  | false, .callA _ _ .brk _ :: fs => describedPath false fs
  | false, .callF _ .brk i _ :: fs => isExpr (core i) && describedPath false fs
  | false, .named .. :: fs => describedPath true fs
  | _, .callA f _ .par _ :: fs => (headName f).any (· ∈ describedFns) && describedPath false fs
  | _, .commaA .. :: fs => describedPath true fs
  | _, .commaR .. :: fs => describedPath true fs
  | _, _ => false

/-- As `KeepsValue`, for the code around the replaced code as well, as far as it is described: where it computes a value, it computes the same value after the fix. -/
def KeepsAround (r : Zip → Option Edit) (cond : Zip → Prop) (dom : Env → Node → Prop) : Prop :=
  ∀ ts p z ed e', Parses ts p → z.prog = p → r z = some ed → innerComments (toks ed.z.e) = false → piped ed.z.fs = false → cond ed.z → Placed ed e' →
    ∀ inner outer, ed.z.fs = inner ++ outer → describedPath false inner = true →
    ∀ E v, dom E (core ed.z.e) → eval E (core (plug inner ed.z.e)) = .val v → eval E (core (plug inner e')) = .val v

end Jarl.Spec
