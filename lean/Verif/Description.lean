import Verif.Version
/-!
# Description: DESCRIPTION files (description.rs)

`HashMap<String, String>` is an association list where a later `insert` wins (`lookupLast`).
-/

namespace Jarl

/-- Rust `str::lines`: split after each `\n`, dropping the terminator `\n` or `\r\n`. -/
def stripEol (l : Str) : Str :=
  match l.reverse with
  | '\n' :: '\r' :: r => r.reverse
  | '\n' :: r => r.reverse
  | _ => l

/-- Rust `str::lines` collected. -/
def rustLines (s : Str) : List Str := (splitInclusive '\n' s).map stripEol

/-- Loop state of `parse_dcf` (description.rs:62-64). `fields` is in insertion order. -/
structure DcfState where
  fields : List (Str × Str)
  key : Option Str
  value : Str

/-- One iteration of the loop, description.rs:66-93. -/
def dcfStep (st : DcfState) (line : Str) : DcfState :=
  match line with
  | [] => st
  | c :: _ =>
    if isWs c then { st with value := st.value ++ trim line ++ [' '] }
    else match splitFirst ':' line with
      | none => st
      | some (k, v) =>
        let fields := match st.key with
          | some key => st.fields ++ [(key, trim st.value)]
          | none => st.fields
        let value := trim v
        { fields, key := some (trim k),
          value := if value.isEmpty then value else value ++ [' '] }

/-- description.rs:61-101 `parse_dcf`, as the list of insertions. -/
def parseDcf (input : Str) : List (Str × Str) :=
  let st := (rustLines input).foldl dcfStep ⟨[], none, []⟩
  match st.key with
  | some key => st.fields ++ [(key, trim st.value)]
  | none => st.fields

/-- `HashMap::get` after the insertions `l`: the last inserted value. -/
def lookupLast (k : Str) (l : List (Str × Str)) : Option Str :=
  (l.reverse.find? (fun p => p.1 = k)).map (·.2)

/-- Rust `s.replace(">=", "")`. -/
def dropGe : Str → Str
  | [] => []
  | '>' :: '=' :: cs => dropGe cs
  | c :: cs => c :: dropGe cs

/-- Outcome of code that may panic. -/
inductive Outcome (α : Type) | ok (a : α) | panic
  deriving DecidableEq, Repr

/-- description.rs:41-57 `extract_version_from_dependency`: it either returns a version or panics
(out-of-order parentheses make the slice panic; everything else reaches `unreachable!`). -/
def extractVersion (dep : Str) : Outcome Str :=
  match splitFirst '(' dep, splitFirst ')' dep with
  | some (pre, _), some (upto, _) =>
    -- `&dep[start + 1..end]`
    match slice (blen pre + 1) (blen upto) dep with
    | none => .panic
    | some part =>
      let v := trim (dropGe part)
      if v.isEmpty then .panic else .ok v
  | _, _ => .panic

/-- `collect` of a `filter_map` whose closure never returns `None` but may panic. -/
def collectVersions : List Str → Outcome (List Str)
  | [] => .ok []
  | d :: ds =>
    match extractVersion d with
    | .panic => .panic
    | .ok v => match collectVersions ds with
      | .panic => .panic
      | .ok vs => .ok (v :: vs)

/-- description.rs:22-37 `Description::get_depend_r_version`. -/
def getDependRVersion (contents : Str) : Outcome (List Str) :=
  match lookupLast (cs! "Depends") (parseDcf contents) with
  | none => .ok []
  | some deps =>
    collectVersions (((splitOn ',' deps).map trim).filter
      (fun s => !s.isEmpty && startsWith (cs! "R ") s))

end Jarl
