import Verif.Text
import Verif.Rules
/-!
# Directive: parsing suppression comments (crates/jarl-core/src/directive.rs)
-/
namespace Jarl

/-- directive.rs:10-24 `LintDirective`. -/
inductive LintDirective where
  | ignore (r : Rule)
  | ignoreChunk (r : Rule)
  | ignoreFile (r : Rule)
  | ignoreStart (r : Rule)
  | ignoreEnd (r : Rule)
deriving DecidableEq, Repr

/-- directive.rs:35-44 `DirectiveParseResult`. -/
inductive DirectiveParse where
  | valid (d : LintDirective)
  | blanket
  | missingExplanation
  | invalidRuleName
deriving DecidableEq, Repr

/-- directive.rs:267-276 `RuleParseResult`. -/
inductive RuleParse where
  | valid (r : Rule)
  | missingExplanation
  | invalidRuleName
  | invalid
deriving DecidableEq, Repr

/-- directive.rs:284-315 `parse_rule_with_explanation`. -/
def parseRuleWithExplanation (text : Str) : RuleParse :=
  match splitFirst ':' text with
  | none =>
    let name := trim text
    if name = [] then .invalid
    else match Rule.fromName name with
      | some _ => .missingExplanation
      | none => .invalidRuleName
  | some (before, after) =>
    let name := trim before
    if name = [] then .invalid
    else match Rule.fromName name with
      | none => .invalidRuleName
      | some rule => if trim after = [] then .missingExplanation else .valid rule

/-- directive.rs:322-330 `parse_rule_only`. -/
def parseRuleOnly (text : Str) : Option Rule :=
  let name := trim text
  if name = [] then none else Rule.fromName name

/-- The repeated `match parse_rule_with_explanation(..)` of directive.rs:90-98, 160-167, 173-180, 216-225,
246-256. -/
def wrapRule (mk : Rule → LintDirective) : RuleParse → Option DirectiveParse
  | .valid r => some (.valid (mk r))
  | .missingExplanation => some .missingExplanation
  | .invalidRuleName => some .invalidRuleName
  | .invalid => none

/-- directive.rs:60-62 `is_quarto_chunk_array_header`. -/
def isQuartoHeader (text : Str) : Bool := trim text = cs! "#| jarl-ignore-chunk:"

/-- Rust `str::starts_with(char::is_whitespace)` (directive.rs:84). -/
def startsWithWs : Str → Bool
  | c :: _ => isWs c
  | [] => false

/-- directive.rs:75-100 `parse_quarto_chunk_array_item`. -/
def parseQuartoItem (text : Str) : Option DirectiveParse :=
  match stripPrefix (cs! "#|") (trim text) with
  | none => none
  | some rest =>
    match stripPrefix (cs! "-") (trimStart rest) with
    | none => none
    | some rest =>
      if !startsWithWs rest && rest ≠ [] then none
      else
        let rest := trimStart rest
        if rest = [] then none else wrapRule .ignoreChunk (parseRuleWithExplanation rest)

/-- directive.rs:140-152: the comment marker; the flag is `is_quarto_pipe`. -/
def stripMarker (text : Str) : Option (Str × Bool) :=
  match stripPrefix (cs! "#| ") text with
  | some rest => some (rest, true)
  | none =>
    match stripPrefix (cs! "# ") text with
    | some rest => some (rest, false)
    | none =>
      match stripPrefix (cs! "#") text with
      | some rest => some (rest, false)
      | none => none

/-- directive.rs:185-205: the `-end ` branch. -/
def parseEnd (afterEnd : Str) : Option DirectiveParse :=
  let rulePart := match splitFirst ':' afterEnd with
    | some (before, _) => before
    | none => afterEnd
  match parseRuleOnly rulePart with
  | some rule => some (.valid (.ignoreEnd rule))
  | none => if trim rulePart = [] then none else some .invalidRuleName

/-- directive.rs:155-263: everything after the word `jarl-ignore`. -/
def parseAfterWord (pipe : Bool) (rest : Str) : Option DirectiveParse :=
  match stripPrefix (cs! "-file ") rest with
  | some a => if pipe then none else wrapRule .ignoreFile (parseRuleWithExplanation a)
  | none =>
  match stripPrefix (cs! "-start ") rest with
  | some a => if pipe then none else wrapRule .ignoreStart (parseRuleWithExplanation a)
  | none =>
  match stripPrefix (cs! "-end ") rest with
  | some a => if pipe then none else parseEnd a
  | none =>
  match stripPrefix (cs! " ") rest with
  | some a =>
    if pipe then none
    else if startsWith (cs! ":") a then some .blanket
    else wrapRule .ignore (parseRuleWithExplanation a)
  | none =>
    if rest = [] ∨ startsWith (cs! ":") rest = true then
      if pipe then none else some .blanket
    else if rest = cs! "-chunk" ∨ startsWith (cs! "-chunk:") rest = true then some .blanket
    else
      match stripPrefix (cs! "-chunk ") rest with
      | some a =>
        if startsWith (cs! ":") a then some .blanket
        else wrapRule .ignoreChunk (parseRuleWithExplanation a)
      | none => none

/-- directive.rs:140-263 `parse_comment_directive`. -/
def parseCommentDirective (text : Str) : Option DirectiveParse :=
  match stripMarker (trimStart text) with
  | none => none
  | some (t, pipe) =>
    match stripPrefix (cs! "jarl-ignore") t with
    | none => none
    | some rest => parseAfterWord pipe rest

end Jarl
