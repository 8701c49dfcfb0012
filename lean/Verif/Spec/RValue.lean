import Verif.Spec.RLaws
/-!
# Specification: what a part of R computes

Values, and the functions and operators that the rules with fixes are about. Written after the documentation of R (4.5); nothing here is from jarl. Simplifications: code has no side effects; names
of functions of base R have not been given another meaning; there are no dimensions and no attributes but names, classes and the levels of factors; names that are all empty are no names; functions
applied to objects with a class (other than factors) are not described (`unknown`), nor are named arguments beyond those below, lists where only vectors are meant, complex numbers and dates.
-/
namespace Jarl.Spec
open Jarl

/-- Numbers of type double. -/
inductive Dbl
  | na
  | nan
  | num (q : Rat)
  | inf (negative : Bool)
deriving DecidableEq

/-- Elements with their names; `[]` as name: no name. -/
abbrev Vec (α : Type) := List (Str × α)

/-- Values. `none` is `NA`. -/
inductive Value
  | null
  | lgl (v : Vec (Option Bool))
  | int (v : Vec (Option Int))
  | dbl (v : Vec Dbl)
  | str (v : Vec (Option Str))
  | list (v : List (Str × Value))
  | factor (levels : List Str) (codes : List (Option Nat))
  | object (cls : List Str) (v : Value)
  | function (name : Str)

/-- What evaluation can end with; `unknown`: not described here. -/
inductive Res
  | val (v : Value)
  | error
  | unknown

def Res.bind : Res → (Value → Res) → Res
  | .val v, f => f v
  | .error, _ => .error
  | .unknown, _ => .unknown

/-- What is not fixed by the language: variables and code not described here, the collation of strings, how numbers are written, regular expressions, and random numbers (`n` and the size). -/
structure Env where
  other : Node → Res
  collate : Str → Str → Ordering
  number : Rat → Str
  regex : Str → Str → Bool
  draw : Int → Value → Option (List Nat)

/-- A vector without names. -/
def plain (l : List α) : Vec α := l.map (fun x => ([], x))

/-- The names stay. -/
def each (f : α → β) (v : Vec α) : Vec β := v.map (fun x => (x.1, f x.2))

/-- Some element has a name. -/
def hasNames (v : Vec α) : Bool := v.any (fun x => !x.1.isEmpty)

/-- Recycling: the names are those of the first vector with names that is as long as the result. -/
def recycled (f : α → β → γ) (v : Vec α) (w : Vec β) : Vec γ :=
  if v.isEmpty || w.isEmpty then []
  else
    let n := max v.length w.length
    let name (i : Nat) : Str :=
      if hasNames v && v.length = n then ((v[i]?).map (·.1)).getD []
      else if hasNames w && w.length = n then ((w[i]?).map (·.1)).getD [] else []
    (List.range n).filterMap (fun i => (v[i % v.length]?).bind (fun x => (w[i % w.length]?).map (fun y => (name i, f x.2 y.2))))

/-! ## Conversions -/

def ofBool : Option Bool → Dbl
  | none => .na
  | some true => .num 1
  | some false => .num 0

def ofInt : Option Int → Dbl
  | none => .na
  | some n => .num n

/-- Numbers. -/
def numbers : Value → Option (Vec Dbl)
  | .null => some []
  | .lgl v => some (each ofBool v)
  | .int v => some (each ofInt v)
  | .dbl v => some v
  | _ => none

def Dbl.truth : Dbl → Option Bool
  | .na | .nan => none
  | .num q => some (q ≠ 0)
  | .inf _ => some true

/-- Logical values. -/
def logicals : Value → Option (Vec (Option Bool))
  | .lgl v => some v
  | v => (numbers v).map (each Dbl.truth)

def Dbl.text (E : Env) : Dbl → Option Str
  | .na => none
  | .nan => some (cs! "NaN")
  | .num q => some (E.number q)
  | .inf n => some (if n then cs! "-Inf" else cs! "Inf")

def boolText : Option Bool → Option Str
  | none => none
  | some true => some (cs! "TRUE")
  | some false => some (cs! "FALSE")

/-- Strings. -/
def strings (E : Env) : Value → Option (Vec (Option Str))
  | .str v => some v
  | .lgl v => some (each boolText v)
  | v => (numbers v).map (each (Dbl.text E))

def isStr : Value → Bool
  | .str _ => true
  | _ => false

/-- One value. -/
def one (b : Option Bool) : Value := .lgl (plain [b])

/-! ## Operators -/

def not3 : Option Bool → Option Bool := Option.map (!·)

/-- `!x` -/
def notV (x : Value) : Res := match logicals x with
  | some l => .val (.lgl (each not3 l))
  | none => .unknown

/-- Where a number is, for comparisons. -/
def Dbl.key : Dbl → Option (Int × Rat)
  | .na | .nan => none
  | .num q => some (0, q)
  | .inf true => some (-1, 0)
  | .inf false => some (1, 0)

def keyLt (a b : Int × Rat) : Bool := decide (a.1 < b.1 ∨ (a.1 = b.1 ∧ a.2 < b.2))

/-- A comparison, from "less" and "equal". -/
def compare3 (o : Op) (lt eq : Bool) : Option Bool :=
  match o with
  | .lt => some lt
  | .le => some (lt || eq)
  | .gt => some (!(lt || eq))
  | .ge => some (!lt)
  | .eq2 => some eq
  | .ne => some (!eq)
  | _ => none

def compareNum (o : Op) (a b : Dbl) : Option Bool :=
  match a.key, b.key with
  | some x, some y => compare3 o (keyLt x y) (x = y)
  | _, _ => none

/-- `==` and `!=` compare the characters, `<` the places in the alphabet. -/
def compareStr (E : Env) (o : Op) (a b : Option Str) : Option Bool :=
  match a, b with
  | some x, some y => if o = .eq2 ∨ o = .ne then compare3 o false (x = y) else compare3 o (E.collate x y = .lt) (E.collate x y = .eq)
  | _, _ => none

/-- `x < y`, `x == y`, … -/
def compareV (E : Env) (o : Op) (x y : Value) : Res :=
  if isStr x || isStr y then
    match strings E x, strings E y with
    | some v, some w => .val (.lgl (recycled (compareStr E o) v w))
    | _, _ => .unknown
  else match numbers x, numbers y with
    | some v, some w => .val (.lgl (recycled (compareNum o) v w))
    | _, _ => .unknown

def elems (v : Vec α) : List α := v.map (·.2)

/-- `x %in% table` -/
def inV (E : Env) (x table : Value) : Res :=
  if isStr x || isStr table then
    match strings E x, strings E table with
    | some v, some w => .val (.lgl (plain ((elems v).map (fun a => some (decide (a ∈ elems w))))))
    | _, _ => .unknown
  else match numbers x, numbers table with
    | some v, some w => .val (.lgl (plain ((elems v).map (fun a => some (decide (a ∈ elems w))))))
    | _, _ => .unknown

/-- A condition in `if`: one value; strings are allowed if they say so. -/
def condV : Value → Option (Except Unit Bool)
  | .str [(_, some s)] =>
    if s ∈ [cs! "TRUE", cs! "true", cs! "T", cs! "True"] then some (.ok true)
    else if s ∈ [cs! "FALSE", cs! "false", cs! "F", cs! "False"] then some (.ok false) else some (.error ())
  | v => match logicals v with
    | some [(_, some b)] => some (.ok b)
    | some _ => some (.error ())
    | none => none

/-- `if (c) t else e` -/
def ifV (c t e : Res) : Res := c.bind fun v => match condV v with
  | some (.ok true) => t
  | some (.ok false) => e
  | some (.error _) => .error
  | none => .unknown

/-- A side of `&&` and `||`: one number or logical value; strings are an error. -/
def sideV (v : Value) (k : Option Bool → Res) : Res := match v with
  | .str _ => .error
  | v => match logicals v with
    | some [(_, b)] => k b
    | some (_ :: _ :: _) => .error
    | _ => .unknown

def vAnd (a b : Option Bool) : Option Bool := if a = some false ∨ b = some false then some false else if a = none ∨ b = none then none else some true

def vOr (a b : Option Bool) : Option Bool := if a = some true ∨ b = some true then some true else if a = none ∨ b = none then none else some false

/-- `x && y`: `y` is looked at only if `x` is not `FALSE`. -/
def andV (x y : Res) : Res := x.bind fun v => sideV v fun a => if a = some false then .val (one (some false)) else y.bind fun w => sideV w fun b => .val (one (vAnd a b))

/-- `x || y` -/
def orV (x y : Res) : Res := x.bind fun v => sideV v fun a => if a = some true then .val (one (some true)) else y.bind fun w => sideV w fun b => .val (one (vOr a b))

/-- `x %||% y` -/
def coalesceV (x y : Res) : Res := x.bind fun v => match v with
  | .null => y
  | v => .val v

/-- One whole number. -/
def wholeOf (v : Value) : Option Int := match numbers v with
  | some [(_, .num q)] => if q.den = 1 then some q.num else none
  | _ => none

/-- From `a` up to `b`, or down. -/
def upDown (a b : Int) : List Int :=
  if a ≤ b then (List.range (b - a + 1).toNat).map (fun i : Nat => a + i) else (List.range (a - b + 1).toNat).map (fun i : Nat => a - i)

def ints (l : List Int) : Value := .int (plain (l.map some))

/-- `a:b`, for whole numbers. -/
def colonV (x y : Value) : Res := match wholeOf x, wholeOf y with
  | some a, some b => .val (ints (upDown a b))
  | _, _ => .unknown

def addNum (minus : Bool) : Dbl → Dbl → Option Dbl
  | .num a, .num b => some (.num (if minus then a - b else a + b))
  | .na, .num _ => some .na
  | .num _, .na => some .na
  | _, _ => none

/-- `x + y`, `x - y`, for finite numbers; the result is of type double. (If both are integers, R makes integers; all uses below only look at the numbers.) -/
def addV (minus : Bool) (x y : Value) : Res := match numbers x, numbers y with
  | some v, some w =>
    let r := recycled (addNum minus) v w
    if r.all (fun z => z.2.isSome) then .val (.dbl (r.filterMap (fun z => z.2.map (fun d => (z.1, d))))) else .unknown
  | _, _ => .unknown

/-! ## Functions -/

def any3 (l : List (Option Bool)) : Option Bool := if some true ∈ l then some true else if none ∈ l then none else some false

def all3 (l : List (Option Bool)) : Option Bool := if some false ∈ l then some false else if none ∈ l then none else some true

def anyV (x : Value) : Res := match logicals x with
  | some l => .val (one (any3 (elems l)))
  | none => .unknown

def allV (x : Value) : Res := match logicals x with
  | some l => .val (one (all3 (elems l)))
  | none => .unknown

def Dbl.isNa : Dbl → Bool
  | .na | .nan => true
  | _ => false

/-- An element of a list that is one missing value. -/
def naItem : Value → Bool
  | .lgl [(_, none)] => true
  | .int [(_, none)] => true
  | .dbl [(_, d)] => d.isNa
  | .str [(_, none)] => true
  | _ => false

/-- Which elements are missing, with their names. -/
def missing : Value → Option (Vec Bool)
  | .null => some []
  | .lgl v => some (each Option.isNone v)
  | .int v => some (each Option.isNone v)
  | .dbl v => some (each Dbl.isNa v)
  | .str v => some (each Option.isNone v)
  | .list v => some (v.map (fun x => (x.1, naItem x.2)))
  | _ => none

def isNaV (x : Value) : Res := match missing x with
  | some m => .val (.lgl (each some m))
  | none => .unknown

def anyNaV (x : Value) : Res := match missing x with
  | some m => .val (one (some ((elems m).any id)))
  | none => .unknown

def isNanV : Value → Res
  | .lgl v => .val (.lgl (each (fun _ => some false) v))
  | .int v => .val (.lgl (each (fun _ => some false) v))
  | .dbl v => .val (.lgl (each (fun d => some (decide (d = .nan))) v))
  | _ => .unknown

/-- Which elements occur before. -/
def repeated [DecidableEq α] : List α → List α → List Bool
  | _, [] => []
  | before, a :: l => decide (a ∈ before) :: repeated (before ++ [a]) l

def dupFlags : Value → Option (List Bool)
  | .null => some []
  | .lgl v => some (repeated [] (elems v))
  | .int v => some (repeated [] (elems v))
  | .dbl v => some (repeated [] (elems v))
  | .str v => some (repeated [] (elems v))
  | _ => none

def duplicatedV (x : Value) : Res := match dupFlags x with
  | some l => .val (.lgl (plain (l.map some)))
  | none => .unknown

/-- The number of the first element for which it is true, 0 if there is none. -/
def firstTrue (l : List Bool) : Int := match l.findIdx? id with
  | some i => (i : Int) + 1
  | none => 0

/-- `anyDuplicated(x)` -/
def anyDuplicatedV (x : Value) : Res := match dupFlags x with
  | some l => .val (ints [firstTrue l])
  | none => .unknown

def len : Value → Option Nat
  | .null => some 0
  | .lgl v => some v.length
  | .int v => some v.length
  | .dbl v => some v.length
  | .str v => some v.length
  | .list v => some v.length
  | .factor _ c => some c.length
  | .function _ => some 1
  | .object _ _ => none

def lengthV (x : Value) : Res := match len x with
  | some n => .val (ints [n])
  | none => .unknown

def levelsV : Value → Res
  | .factor ls _ => .val (.str (plain (ls.map some)))
  | .object _ _ => .unknown
  | _ => .val .null

/-- `nlevels(x)`: the number of levels, 0 without levels. -/
def nlevelsV : Value → Res
  | .factor ls _ => .val (ints [ls.length])
  | .object _ _ => .unknown
  | _ => .val (ints [0])

def ifelseElt (yes no : Option Bool) (t : Option Bool) : Option Bool := match t with
  | none => none
  | some true => yes
  | some false => no

/-- `ifelse(test, yes, no)` for single logical values `yes` and `no`: the result has the names of `test`. -/
def ifelseV : List Value → Res
  | [t, .lgl [(_, y)], .lgl [(_, n)]] => match logicals t with
    | some l => .val (.lgl (each (ifelseElt y n) l))
    | none => .unknown
  | _ => .unknown

def isNullV : Value → Res
  | .null => .val (one (some true))
  | _ => .val (one (some false))

/-- `is.numeric(x)`: not for factors. -/
def isNumericV : Value → Res
  | .int _ => .val (one (some true))
  | .dbl _ => .val (one (some true))
  | .object _ _ => .unknown
  | _ => .val (one (some false))

/-- `is.integer(x)`: the codes of factors are integers. -/
def isIntegerV : Value → Res
  | .int _ => .val (one (some true))
  | .factor _ _ => .val (one (some true))
  | .object _ _ => .unknown
  | _ => .val (one (some false))

def classOf : Value → List Str
  | .null => [cs! "NULL"]
  | .lgl _ => [cs! "logical"]
  | .int _ => [cs! "integer"]
  | .dbl _ => [cs! "numeric"]
  | .str _ => [cs! "character"]
  | .list _ => [cs! "list"]
  | .factor _ _ => [cs! "factor"]
  | .object c _ => c
  | .function _ => [cs! "function"]

def classV (x : Value) : Res := .val (.str (plain ((classOf x).map some)))

def inheritsV : List Value → Res
  | [x, .str [(_, some s)]] => .val (one (some (decide (s ∈ classOf x))))
  | _ => .unknown

def identicalV : List Value → Res
  | [.str v, .str w] => .val (one (some (decide (v = w))))
  | _ => .unknown

/-- The length of each element, with the names. -/
def lengthsOf : List (Str × Value) → Option (Vec (Option Int))
  | [] => some []
  | (n, v) :: rest => match len v, lengthsOf rest with
    | some k, some l => some ((n, some (k : Int)) :: l)
    | _, _ => none

def ones (v : Vec α) : Vec (Option Int) := each (fun _ => some 1) v

def lengthsV : Value → Res
  | .null => .val (.int [])
  | .lgl v => .val (.int (ones v))
  | .int v => .val (.int (ones v))
  | .dbl v => .val (.int (ones v))
  | .str v => .val (.int (ones v))
  | .list v => match lengthsOf v with
    | some l => .val (.int l)
    | none => .unknown
  | _ => .unknown

/-- What `sapply` and `vapply` name the results: as the elements; for strings without names by the strings. -/
def applyNames : Value → Value
  | .str v => if hasNames v then .str v else .str (v.map (fun x => (x.2.getD (cs! "NA"), x.2)))
  | v => v

/-- `sapply(X, length)`: for no elements, an empty list. -/
def sapplyV : List Value → Res
  | [x, .function f] =>
    if f = cs! "length" then
      (lengthsV (applyNames x)).bind fun v => match v with
        | .int [] => .val (.list [])
        | v => .val v
    else .unknown
  | _ => .unknown

/-- `vapply(X, length, FUN.VALUE)`: of the type of `FUN.VALUE`. -/
def vapplyV : List Value → Res
  | [x, .function f, .int [_]] => if f = cs! "length" then lengthsV (applyNames x) else .unknown
  | [x, .function f, .dbl [_]] =>
    if f = cs! "length" then (lengthsV (applyNames x)).bind fun v => match v with
      | .int l => .val (.dbl (each ofInt l))
      | _ => .unknown
    else .unknown
  | _ => .unknown

def seqAlongV (x : Value) : Res := match len x with
  | some n => .val (ints ((List.range n).map (fun i : Nat => (i : Int) + 1)))
  | none => .unknown

def seqLenV (x : Value) : Res := match wholeOf x with
  | some n => if 0 ≤ n then .val (ints ((List.range n.toNat).map (fun i : Nat => (i : Int) + 1))) else .error
  | none => .unknown

/-- `seq(n)` for one whole number: from 1 to it, up or down. -/
def seqV (x : Value) : Res := match wholeOf x with
  | some n => .val (ints (upDown 1 n))
  | none => .unknown

def trueAt : Nat → Vec (Option Bool) → Vec (Option Int)
  | _, [] => []
  | i, (n, b) :: rest => if b = some true then (n, some (i : Int)) :: trueAt (i + 1) rest else trueAt (i + 1) rest

def whichV : Value → Res
  | .lgl v => .val (.int (trueAt 1 v))
  | _ => .unknown

/-- Does the pattern occur? Not in a missing string. -/
def occurs (f : Str → Bool) : Option Str → Bool
  | some s => f s
  | none => false

/-- Does `p` occur in the string? -/
def contains (p : Str) : Str → Bool
  | [] => p.isEmpty
  | c :: s => p.isPrefixOf (c :: s) || contains p s

/-- How `grepl` and `grep` compare: by regular expression, or if `fixed = TRUE` as it stands. -/
def matcher (E : Env) (fixed : Bool) (p s : Str) : Bool := if fixed then contains p s else E.regex p s

/-- `grepl(p, x)` -/
def greplV (E : Env) (fixed : Bool) : List Value → Res
  | [.str [(_, some p)], x] => match strings E x with
    | some v => .val (.lgl (plain ((elems v).map (fun s => some (occurs (matcher E fixed p) s)))))
    | none => .unknown
  | _ => .unknown

/-- The numbers of the elements with the property. -/
def places (f : α → Bool) : Nat → List α → List Int
  | _, [] => []
  | i, a :: l => if f a then (i : Int) :: places f (i + 1) l else places f (i + 1) l

/-- `grep(p, x)` -/
def grepV (E : Env) (fixed : Bool) : List Value → Res
  | [.str [(_, some p)], x] => match strings E x with
    | some v => .val (ints (places (occurs (matcher E fixed p)) 1 (elems v)))
    | none => .unknown
  | _ => .unknown

/-- `sample.int(n, size)` -/
def sampleIntV (E : Env) : List Value → Res
  | [n, size] => match wholeOf n with
    | some n => if n ≤ 0 then .error else match E.draw n size with
      | some l => .val (ints (l.map Int.ofNat))
      | none => .error
    | none => .unknown
  | _ => .unknown

/-- The elements with these numbers, counted from 1. -/
def pickAt (v : List α) (l : List Nat) : List α := l.filterMap (fun i => if i = 0 then none else v[i - 1]?)

/-- `sample(x, size)` for integers: one number stands for the numbers up to it. -/
def sampleV (E : Env) : List Value → Res
  | [.int [(_, some n)], size] => if 1 ≤ n then sampleIntV E [ints [n], size] else match E.draw 1 size with
      | some l => .val (.int (pickAt [([], some n)] l))
      | none => .error
  | [.int v, size] => if v.isEmpty then .unknown else match E.draw v.length size with
      | some l => .val (.int (pickAt v l))
      | none => .error
  | _ => .unknown

/-- The order of the elements: the numbers of those that are not missing, sorted (equal ones stay in their order), then of those that are. -/
def orderOf (le : α → α → Bool) (na : α → Bool) (l : List α) : List Nat :=
  let numbered := l.zipIdx 1
  ((numbered.filter (fun x => !na x.1)).mergeSort (fun a b => le a.1 b.1)).map (·.2) ++ (numbered.filter (fun x => na x.1)).map (·.2)

def leNum (a b : Dbl) : Bool := match a.key, b.key with
  | some x, some y => !keyLt y x
  | _, _ => false

def leStr (E : Env) : Option Str → Option Str → Bool
  | some x, some y => decide (E.collate x y ≠ .gt)
  | _, _ => false

/-- `order(x)` -/
def orderV (E : Env) (x : Value) : Res := match x with
  | .str v => .val (ints ((orderOf (leStr E) Option.isNone (elems v)).map Int.ofNat))
  | x => match numbers x with
    | some v => .val (ints ((orderOf leNum Dbl.isNa (elems v)).map Int.ofNat))
    | none => .unknown

/-- Sorted, without the missing elements; the names go with the elements. -/
def sortedBy (le : α → α → Bool) (na : α → Bool) (v : Vec α) : Vec α := (v.filter (fun x => !na x.2)).mergeSort (fun a b => le a.2 b.2)

/-- `sort(x)` -/
def sortV (E : Env) : Value → Res
  | .lgl v => .val (.lgl (sortedBy (fun a b => leNum (ofBool a) (ofBool b)) Option.isNone v))
  | .int v => .val (.int (sortedBy (fun a b => leNum (ofInt a) (ofInt b)) Option.isNone v))
  | .dbl v => .val (.dbl (sortedBy leNum Dbl.isNa v))
  | .str v => .val (.str (sortedBy (leStr E) Option.isNone v))
  | _ => .unknown

/-- Numbers that count elements. -/
def indices : Value → Option (List Nat)
  | .int v => v.mapM (fun x => x.2.bind (fun n => if 0 < n then some n.toNat else none))
  | _ => none

/-- `x[i]` for numbers of elements that exist -/
def indexV (x i : Value) : Res :=
  match indices i, len x with
  | some l, some n => if l.all (· ≤ n) then match x with
      | .lgl v => .val (.lgl (pickAt v l))
      | .int v => .val (.int (pickAt v l))
      | .dbl v => .val (.dbl (pickAt v l))
      | .str v => .val (.str (pickAt v l))
      | .list v => .val (.list (pickAt v l))
      | _ => .unknown
    else .unknown
  | _, _ => .unknown

/-- `nchar(x)` -/
def ncharV : Value → Res
  | .str v => .val (.int (each (Option.map (fun s : Str => (s.length : Int))) v))
  | _ => .unknown

/-- The characters from place `a` to place `b`. -/
def cut (s : Str) (a b : Int) : Str := (s.take b.toNat).drop (a - 1).toNat

/-- The whole number for the element `i`; `some none`: it is missing. -/
def placeAt (l : Vec Dbl) (i : Nat) : Option (Option Int) := (l[i % l.length]?).bind fun x => match x.2 with
  | .na => some none
  | .num q => if q.den = 1 then some (some q.num) else none
  | _ => none

/-- The part of one string, its name and number in front. -/
def cutAt (l m : Vec Dbl) (x : (Str × Option Str) × Nat) : Option (Str × Option Str) := match placeAt l x.2, placeAt m x.2 with
  | some i, some j => some (x.1.1, x.1.2.bind (fun s => i.bind (fun i => j.map (fun j => cut s i j))))
  | _, _ => none

/-- `substr(x, start, stop)` for strings: `start` and `stop` are recycled to the length of `x`. -/
def substrV : List Value → Res
  | [.str v, a, b] => match numbers a, numbers b with
    | some l, some m =>
      let r := v.zipIdx.map (cutAt l m)
      if r.all Option.isSome then .val (.str (r.filterMap id)) else .unknown
    | _, _ => .unknown
  | _ => .unknown

/-- `startsWith(x, s)`, `endsWith(x, s)`: strings only, no names. -/
def boundaryV (f : Str → Str → Bool) : List Value → Res
  | [.str v, .str [(_, s)]] => .val (.lgl (plain ((elems v).map (fun x => x.bind (fun x => s.map (fun s => f s x))))))
  | [.str _, _] => .unknown
  | _ => .error

/-! ## Evaluation -/

/-- The values of the arguments with their names. -/
abbrev Args := List (Option Str × Res)

/-- What is passed for the parameter `x`: compare `matchArg`. -/
def passed (params : List Str) (as : Args) (x : Str) : Option Res :=
  match as.find? (fun a => a.1 = some x) with
  | some a => some a.2
  | none =>
    let free := params.filter (fun q => !as.any (fun a => a.1 = some q))
    match free.findIdx? (· = x) with
    | some i => ((as.filter (fun a => a.1.isNone))[i]?).map (·.2)
    | none => none

def collect : List (Option Res) → (List Value → Res) → Res
  | [], k => k []
  | some r :: rest, k => r.bind fun v => collect rest fun vs => k (v :: vs)
  | none :: _, _ => .unknown

/-- A function with these parameters, all given. -/
def withParams (params : List Str) (f : List Value → Res) (as : Args) : Res :=
  if as.length = params.length then collect (params.map (passed params as)) f else .unknown

/-- A function with one parameter `x`. -/
def unary (f : Value → Res) (as : Args) : Res := match as with
  | [(n, r)] => if n = none ∨ n = some (cs! "x") then r.bind f else .unknown
  | _ => .unknown

/-- The same, without name. -/
def unary' (f : Value → Res) (as : Args) : Res := match as with
  | [(none, r)] => r.bind f
  | _ => .unknown

/-- `fixed = TRUE` as a third argument. -/
def withFixed (f : Bool → List Value → Res) (as : Args) : Res := match as with
  | [a, b, (some n, .val (.lgl [(_, some true)]))] => if n = cs! "fixed" then withParams [cs! "pattern", cs! "x"] (f true) [a, b] else .unknown
  | as => withParams [cs! "pattern", cs! "x"] (f false) as

/-- The functions described here, by name. -/
def builtin (E : Env) : List (Str × (Args → Res)) :=
  [(cs! "any", unary' anyV), (cs! "all", unary' allV), (cs! "is.na", unary isNaV), (cs! "anyNA", unary anyNaV), (cs! "is.nan", unary isNanV),
   (cs! "duplicated", unary duplicatedV), (cs! "anyDuplicated", unary anyDuplicatedV), (cs! "length", unary lengthV), (cs! "levels", unary levelsV),
   (cs! "nlevels", unary nlevelsV), (cs! "ifelse", withParams [cs! "test", cs! "yes", cs! "no"] ifelseV), (cs! "is.null", unary isNullV),
   (cs! "is.numeric", unary isNumericV), (cs! "is.integer", unary isIntegerV), (cs! "class", unary classV),
   (cs! "inherits", withParams [cs! "x", cs! "what"] inheritsV), (cs! "identical", withParams [cs! "x", cs! "y"] identicalV), (cs! "lengths", unary lengthsV),
   (cs! "sapply", withParams [cs! "X", cs! "FUN"] sapplyV), (cs! "vapply", withParams [cs! "X", cs! "FUN", cs! "FUN.VALUE"] vapplyV),
   (cs! "seq_along", unary' seqAlongV), (cs! "seq_len", unary' seqLenV), (cs! "seq", unary' seqV), (cs! "which", unary whichV),
   (cs! "grepl", withFixed (greplV E)), (cs! "grep", withFixed (grepV E)), (cs! "sample", withParams [cs! "x", cs! "size"] (sampleV E)),
   (cs! "sample.int", withParams [cs! "n", cs! "size"] (sampleIntV E)), (cs! "order", unary' (orderV E)), (cs! "sort", unary (sortV E)), (cs! "nchar", unary ncharV),
   (cs! "substr", withParams [cs! "x", cs! "start", cs! "stop"] substrV), (cs! "startsWith", withParams [cs! "x", cs! "prefix"] (boundaryV List.isPrefixOf)),
   (cs! "endsWith", withParams [cs! "x", cs! "suffix"] (boundaryV List.isSuffixOf))]

/-- The name of a function of base R. -/
def headName : Node → Option Str
  | .atom _ .id s => some s
  | .atom _ (.ns pkg _) s => if pkg = cs! "base" then some s else none
  | _ => none

/-- The value of a number without exponent: the digits, and how many are behind the point. -/
def plainDecimal (s : Str) : Option Rat :=
  let a := s.takeWhile Char.isDigit
  match s.drop a.length with
  | [] => if a.isEmpty then none else some (value a)
  | '.' :: b => if b.all Char.isDigit then some ((value (a ++ b) : Rat) / (10 ^ b.length : Nat)) else none
  | _ => none

/-- A string without backslashes. -/
def literal (s : Str) : Option Str := match s with
  | q :: rest => if (q = '"' ∨ q = '\'') ∧ rest.getLast? = some q ∧ '\\' ∉ rest then some rest.dropLast else none
  | [] => none

/-- Constants, and names (which do not begin with a digit). -/
def atomV (E : Env) (k : AKind) (s : Str) : Res := match k with
  | .true => if s = cs! "TRUE" then .val (one (some true)) else .unknown
  | .false => if s = cs! "FALSE" then .val (one (some false)) else .unknown
  | .null => if s = cs! "NULL" then .val .null else .unknown
  | .nan => if s = cs! "NaN" then .val (.dbl (plain [.nan])) else .unknown
  | .na =>
    if s = cs! "NA" then .val (one none) else if s = cs! "NA_character_" then .val (.str (plain [none])) else if s = cs! "NA_integer_" then .val (.int (plain [none]))
    else if s = cs! "NA_real_" then .val (.dbl (plain [.na])) else .unknown
  | .str => match literal s with | some b => .val (.str (plain [some b])) | none => .unknown
  | .double => match plainDecimal s with | some q => .val (.dbl (plain [.num q])) | none => .unknown
  | .int => match plainDecimal (s.filter (· ≠ 'L')) with | some q => if q.den = 1 then .val (ints [q.num]) else .unknown | none => .unknown
  | k => if k = .id ∧ s = cs! "length" then .val (.function s) else if (s.head?).any Char.isDigit then .unknown else E.other (.atom .none k s)

/-- The operators described here. -/
def binV (E : Env) (whole : Node) (o : Op) (l r : Res) : Res := match o with
  | .lt | .le | .gt | .ge | .eq2 | .ne => l.bind fun a => r.bind fun b => compareV E o a b
  | .and2 => andV l r
  | .or2 => orV l r
  | .colon => l.bind fun a => r.bind fun b => colonV a b
  | .plus => l.bind fun a => r.bind fun b => addV false a b
  | .minus => l.bind fun a => r.bind fun b => addV true a b
  | .special s => if s = cs! "in" then l.bind fun a => r.bind fun b => inV E a b else if s = cs! "||" then coalesceV l r else E.other whole
  | _ => E.other whole

/-- A call of the function `name`; `whole` is the call, written without `base::`. -/
def callV (E : Env) (name : Str) (as : Args) (whole : Node) : Res := match (builtin E).lookup name with
  | some f => f as
  | none => E.other whole

/-- The value of code (without layout, see `core`), and the values if it is a list of arguments. -/
def evalBoth (E : Env) : Node → Res × Args
  | .hole => (.unknown, [(none, .unknown)])
  | .snil => (.unknown, [(none, .unknown)])
  | .scons .. => (.unknown, [(none, .unknown)])
  | .named _ _ s _ e => (.unknown, [(some s, (evalBoth E e).1)])
  | .comma a _ rest => (.unknown, (evalBoth E a).2 ++ (evalBoth E rest).2)
  | .atom _ k s => let r := atomV E k s; (r, [(none, r)])
  | .un g o e => let r := if o = .bang then (evalBoth E e).1.bind notV else E.other (.un g o e); (r, [(none, r)])
  | .bin l g o r => let v := binV E (.bin l g o r) o (evalBoth E l).1 (evalBoth E r).1; (v, [(none, v)])
  | .call f g .par args g2 =>
    let r := match headName f with
      | some s => callV E s (if args = .hole then [] else (evalBoth E args).2) (.call (sym s) g .par args g2)
      | none => E.other (.call f g .par args g2)
    (r, [(none, r)])
  | .call f g .brk args g2 =>
    let r := match (evalBoth E args).2 with
      | [(none, i)] => (evalBoth E f).1.bind fun x => i.bind fun i => indexV x i
      | _ => E.other (.call f g .brk args g2)
    (r, [(none, r)])
  | .ifE _ _ c _ t => let r := ifV (evalBoth E c).1 (evalBoth E t).1 (.val .null); (r, [(none, r)])
  | .ifElse _ _ c _ t _ e => let r := ifV (evalBoth E c).1 (evalBoth E t).1 (evalBoth E e).1; (r, [(none, r)])
  | .braces _ (.scons e [] .snil) _ => let r := (evalBoth E e).1; (r, [(none, r)])
  | e => let r := E.other e; (r, [(none, r)])

/-- The value of an expression. -/
def eval (E : Env) (e : Node) : Res := (evalBoth E e).1

/-! ## What a fix has to keep -/

/-- If it is a call, then of a function given by its name, or by `base::` and its name (not from another package). -/
def ownHead : Node → Prop
  | .call (.atom _ k _) _ .par _ _ => k = .id ∨ ∃ i, k = .ns (cs! "base") i
  | _ => True

/-- The parts of an expression. -/
def subs : Node → List Node
  | .un _ _ e => [e]
  | .bin l _ _ r => [l, r]
  | .call _ _ .par args _ => (items args).filterMap valueOf
  | .call f _ _ args _ => f :: (items args).filterMap valueOf
  | .ifE _ _ c _ _ => [c]
  | .ifElse _ _ c _ _ _ _ => [c]
  | _ => []

/-- Down to this depth there are no functions of other packages. -/
def own : Nat → Node → Prop
  | 0, e => ownHead e
  | n + 1, e => ownHead e ∧ ∀ x ∈ subs e, own n x

/-- Under the condition on the code and on what it computes: where the code computes a value, what the rule puts in its place computes the same value. -/
def KeepsValue (r : Zip → Option Edit) (cond : Zip → Prop) (dom : Env → Node → Prop) : Prop :=
  ∀ ts p z ed e', Parses ts p → z.prog = p → r z = some ed → innerComments (toks ed.z.e) = false → piped ed.z.fs = false → cond ed.z → Placed ed e' →
    ∀ E v, dom E (core ed.z.e) → eval E (core ed.z.e) = .val v → eval E (core e') = .val v

/-! ## What the fixes do not check

Conditions on what the code computes; `C79_false_…` shows what goes wrong without. -/

/-- A call of one of these functions of base R. -/
def callTo (names : List Str) : Node → Prop
  | .call f _ .par _ _ => ∃ s ∈ names, headName f = some s
  | _ => False

/-- No part is `NaN` somewhere. -/
def noNaN (E : Env) (e : Node) : Prop := ∀ x ∈ subs e, ∀ d, eval E x = .val (.dbl d) → ∀ y ∈ d, y.2 ≠ .nan

/-- `… %in% x`, no `NaN`. -/
def inNoNaN (E : Env) (e : Node) : Prop := (∃ n x, e = special n (cs! "in") x) ∧ noNaN E e

/-- `x %in% NA`, no `NaN`, and no names. -/
def inNA (E : Env) (e : Node) : Prop :=
  (∃ l s, e = special l (cs! "in") (.atom .none .na s)) ∧ noNaN E e ∧ ∀ x ∈ subs e, ∀ y m, eval E x = .val y → missing y = some m → hasNames m = false

/-- Parts that are strings are one string: there is one class. -/
def oneString (E : Env) (e : Node) : Prop := ∀ x ∈ subs e, ∀ w, eval E x = .val (.str w) → w.length = 1

/-- `"a" %in% …` -/
def stringIn (e : Node) : Prop := ∃ s r, e = special (.atom .none .str s) (cs! "in") r

/-- The arguments are a list that is not empty, a function, and one integer. -/
def listApplied (E : Env) (e : Node) : Prop :=
  callTo [cs! "sapply", cs! "vapply"] e ∧ ∀ x ∈ subs e, ∀ w, eval E x = .val w → (∃ l, w = .list l ∧ l ≠ []) ∨ (∃ s, w = .function s) ∨ ∃ n, w = .int [n]

/-- Whole numbers are not below 1, and the calls have no arguments with names. -/
def fromOne (E : Env) (e : Node) : Prop := ∀ x ∈ subs e, noNames x ∧ ∀ w m, eval E x = .val w → wholeOf w = some m → 1 ≤ m

/-- Nothing is missing. -/
def noneMissing (E : Env) (e : Node) : Prop := ∀ x ∈ subs e, ∀ w, eval E x = .val w → anyNaV w = .val (one (some false))

/-- One number of elements to draw, from the numbers from 1 to a number that is not below 1; what is drawn is among them. -/
def drawn (E : Env) (e : Node) : Prop :=
  (∀ a ∈ argsOf e, argName a = none ∨ argName a = some (cs! "size")) ∧ (∀ l g n, .bin l g .colon n ∈ subs e → ∀ w m, eval E n = .val w → wholeOf w = some m → 1 ≤ m) ∧
  ∀ m s l, E.draw m s = some l → ∀ i ∈ l, 1 ≤ i ∧ (i : Int) ≤ m

/-- `substr`, of strings without names, compared with a constant string without backslashes. -/
def plainStrings (E : Env) (e : Node) : Prop :=
  (∃ body, .atom .none .str (['"'] ++ body ++ ['"']) ∈ subs e ∧ '\\' ∉ body) ∧
  ∀ l ∈ subs e, ¬ callTo [cs! "substring"] l ∧ ∀ x ∈ subs l, ∀ v, eval E x = .val (.str v) → hasNames v = false

/-- Parts are logical. -/
def logicalParts (E : Env) (e : Node) : Prop := ∀ x ∈ subs e, ∀ v, eval E x = .val v → ∃ w, v = .lgl w

/-- No factors. -/
def noFactors (E : Env) (e : Node) : Prop := ∀ l ∈ subs e, ∀ x ∈ subs l, ∀ ls c, eval E x ≠ .val (.factor ls c)

/-- Regular expressions without special characters stand for themselves. -/
def plainRegex (E : Env) : Prop := ∀ p t, (∀ c ∈ p, c ∉ metaChars) → E.regex p t = contains p t

/-- It is not a string. -/
def notString (E : Env) (x : Node) : Prop := ∀ w, eval E x = .val w → isStr w = false

/-- Conditions that are not strings. -/
def noStringConditions (E : Env) : Node → Prop
  | .ifE _ _ a _ (.braces _ (.scons (.ifE _ _ b _ _) _ _) _) => notString E a ∧ notString E b
  | _ => False

/-- `T` and `F` have their values from base R. -/
def ownTF (E : Env) : Prop := E.other (sym (cs! "T")) = .val (one (some true)) ∧ E.other (sym (cs! "F")) = .val (one (some false))

/-- The values of arguments. -/
def evalArgs (E : Env) (as : List Node) : Args := as.map (fun a => (nameOf a, match valueOf a with | some e => eval E e | none => .unknown))

end Jarl.Spec
