import Verif.Text
/-!
# Specification: the formats of `sprintf`, after `?sprintf` in the R manual

A format is a list of pieces: characters, `%%`, and conversions `%[n$][flags][width][.precision]type`. (Left out: widths `*n$`.)
-/
namespace Jarl.Spec
open Jarl

/-- A width or precision: not given, `*` (the next argument), or a number. -/
inductive Width
  | none
  | star
  | digits (ds : Str)
deriving DecidableEq, Repr

/-- A conversion. -/
structure Conv where
  pos : Option Str
  flags : Str
  width : Width
  prec : Option Width
  type : Char
deriving DecidableEq, Repr

/-- Pieces of a format. -/
inductive Piece
  | char (c : Char)
  | percent
  | conv (v : Conv)
deriving DecidableEq, Repr

/-- The text of a width. -/
def Width.text : Width → Str
  | .none => []
  | .star => ['*']
  | .digits ds => ds

/-- The text of a piece. -/
def Piece.text : Piece → Str
  | .char c => [c]
  | .percent => ['%', '%']
  | .conv v => ['%'] ++ (match v.pos with | some ds => ds ++ ['$'] | none => []) ++ v.flags ++ v.width.text ++
      (match v.prec with | some w => ['.'] ++ w.text | none => []) ++ [v.type]

/-- The text of a format. -/
def render (ps : List Piece) : Str := (ps.map Piece.text).flatten

/-- Digits. -/
def Digits (ds : Str) : Prop := ds ≠ [] ∧ ∀ c ∈ ds, c.isDigit = true

/-- The value of digits. -/
def value (ds : Str) : Nat := ds.foldl (fun n c => 10 * n + (c.toNat - '0'.toNat)) 0

/-- A number has digits; a width does not begin with 0 (that is a flag). -/
def Width.Ok : Width → Prop
  | .digits ds => Digits ds ∧ ds.head? ≠ some '0'
  | _ => True

/-- A precision may begin with 0. -/
def Width.PrecOk : Width → Prop
  | .digits ds => Digits ds
  | _ => True

/-- The types of conversions in R's manual, and the flags. -/
def Conv.Ok (v : Conv) : Prop :=
  (∀ ds, v.pos = some ds → Digits ds ∧ value ds < 2 ^ 64) ∧ (∀ c ∈ v.flags, c ∈ ['-', '+', ' ', '#', '0']) ∧ v.width.Ok ∧ (∀ w, v.prec = some w → w.PrecOk) ∧
  v.type ∈ ['a', 'A', 'd', 'i', 'f', 'e', 'E', 'g', 'G', 'o', 's', 'x', 'X']

/-- A format. -/
def Ok (ps : List Piece) : Prop :=
  ∀ p ∈ ps, match p with | .char c => c ≠ '%' | .percent => True | .conv v => v.Ok

/-- Widths and precisions that are taken from an argument. -/
def Conv.stars (v : Conv) : Nat := (if v.width = .star then 1 else 0) + (if v.prec = some .star then 1 else 0)

/-- The arguments that a format uses, counted from 1: a conversion without position uses the next one, and so does each `*`; `k` is how many were used in this way before. -/
def uses : Nat → List Piece → List Nat
  | _, [] => []
  | k, .conv v :: ps =>
    (List.range' (k + 1) v.stars) ++
      (match v.pos with
       | some ds => value ds :: uses (k + v.stars) ps
       | none => (k + v.stars + 1) :: uses (k + v.stars + 1) ps)
  | k, _ :: ps => uses k ps

/-- The format fits `n` arguments: it uses these, all of them and no others. -/
def Fits (ps : List Piece) (n : Nat) : Prop := ∀ i, i ∈ uses 0 ps ↔ 1 ≤ i ∧ i ≤ n

/-- The conversions of a format. -/
def convs (ps : List Piece) : List Conv := ps.filterMap (fun p => match p with | .conv v => some v | _ => none)

/-- What a format without conversions stands for. -/
def plainText (ps : List Piece) : Str := ps.filterMap (fun p => match p with | .char c => some c | .percent => some '%' | .conv _ => none)

/-- `Spaced ps s`: `s` is the text of the format, where blanks may stand behind the first `%` of a piece. (A blank there is a flag in R. More than flags, in front of a
position or of a second `%`, is not a format in R.) -/
inductive Spaced : List Piece → Str → Prop
  | nil : Spaced [] []
  | char {c ps s} : Spaced ps s → Spaced (.char c :: ps) (c :: s)
  | item {p t ps s} (ws : Str) : p.text = '%' :: t → (∀ c ∈ ws, isWs c = true) → Spaced ps s → Spaced (p :: ps) ('%' :: (ws ++ (t ++ s)))

/-- No blank directly behind a `%` (where `%%` is one sign). -/
def NoBlank : Str → Prop
  | '%' :: '%' :: s => NoBlank s
  | '%' :: c :: s => isWs c = false ∧ NoBlank (c :: s)
  | _ :: s => NoBlank s
  | [] => True

/-- No position is given. -/
def Unnumbered (ps : List Piece) : Prop := ∀ v ∈ convs ps, v.pos = none

/-- Every conversion has a position, and no width or precision is an argument. -/
def Numbered (ps : List Piece) : Prop := ∀ v ∈ convs ps, v.pos ≠ none ∧ v.stars = 0

end Jarl.Spec
