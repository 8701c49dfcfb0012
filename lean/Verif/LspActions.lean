import Verif.Lsp
import Verif.Check
import Verif.SuppressionEdit
import Verif.Description
/-!
# LspActions: diagnostics and code actions of the language server
(crates/jarl-lsp/src/lint.rs:85-270, server.rs:413-683)
-/
namespace Jarl

/-- lint.rs:26-43 `DiagnosticFix`, the `data` of an LSP diagnostic. It is serialised to JSON and read back; the
round trip is not modelled. -/
structure LspFixData where
  content : Str
  start : Nat
  stop : Nat
  isSafe : Bool
  ruleName : Str
  diagStart : Nat
  diagEnd : Nat
deriving DecidableEq, Repr

/-- lsp_types `Diagnostic`: the fields that vary (severity is always WARNING, source always "Jarl"). -/
structure LspDiag where
  range : LRange
  message : Str
  data : LspFixData
deriving DecidableEq, Repr

/-- lint.rs:216-270 `convert_to_lsp_diagnostic`. -/
def convertToLsp (d : Diagnostic) (content : Str) (enc : Enc) : LspRes LspDiag :=
  match byteOffsetToLspPosition d.range.start content enc with
  | .err => .err
  | .panic => .panic
  | .ok a =>
    match byteOffsetToLspPosition d.range.stop content enc with
    | .err => .err
    | .panic => .panic
    | .ok b =>
      .ok { range := ⟨a, b⟩
            message := match d.suggestion with
              | some s => d.body ++ cs! " " ++ s
              | none => d.body
            data := ⟨d.fix.content, d.fix.start, d.fix.stop, d.hasSafeFix, d.name, d.range.start, d.range.stop⟩ }

/-- lint.rs:72-76: convert all, stop at the first error. -/
def convertAll (content : Str) (enc : Enc) : List Diagnostic → LspRes (List LspDiag)
  | [] => .ok []
  | d :: ds =>
    match convertToLsp d content enc with
    | .err => .err
    | .panic => .panic
    | .ok x =>
      match convertAll content enc ds with
      | .err => .err
      | .panic => .panic
      | .ok xs => .ok (x :: xs)

/-- lint.rs:152-185: hide `unused_function` diagnostics when the package has more unused functions than the
threshold, unless the rule is selected by name. `named`, `total` and `threshold` are the values computed in
lint.rs:153-175. -/
def hideUnusedLsp (named : Bool) (total threshold : Nat) (ds : List Diagnostic) : List Diagnostic :=
  if named then ds
  else if total > threshold then ds.filter (fun d => d.name ≠ Rule.unusedFunction.name)
  else ds

/-- What lint.rs:88-150 knows about a file: is it excluded, its configuration and the package analysis. -/
structure LspContext where
  path : Str
  excluded : Bool
  cfg : Config
  pkg : PackageAnalysis
  unusedNamed : Bool
  unusedTotal : Nat
  threshold : Nat

/-- lint.rs:58-188 `lint_document` and `run_jarl_linting` for a document with a path whose settings and configuration
could be read. -/
def lintDocument (L : Lints) (ctx : LspContext) (content : Str) (enc : Enc) : LspRes (List LspDiag) :=
  if ctx.excluded then .ok []
  else match getChecks L ctx.pkg ctx.cfg ctx.path content with
    | .error .panic => .panic
    | .error _ => .err
    | .ok ds => convertAll content enc (hideUnusedLsp ctx.unusedNamed ctx.unusedTotal ctx.threshold ds)

/-- lsp_types `TextEdit`. -/
structure TextEdit where
  range : LRange
  newText : Str
deriving DecidableEq, Repr

/-- lsp_types `CodeAction`, the fields that matter: the single edit of the single file, and `is_preferred` (for fixes also
the kind: `quickfix` when safe, `quickfix.unsafe` otherwise). -/
structure LspAction where
  edit : TextEdit
  preferred : Bool
deriving DecidableEq, Repr

/-- server.rs:452-500 `diagnostic_to_code_action`. -/
def fixAction (f : LspFixData) (content : Str) (enc : Enc) : LspRes (Option LspAction) :=
  if f.content = [] ∧ f.start = f.stop then .ok none
  else match byteOffsetToLspPosition f.start content enc with
    | .panic => .panic
    | .err => .ok none
    | .ok a =>
      match byteOffsetToLspPosition f.stop content enc with
      | .panic => .panic
      | .err => .ok none
      | .ok b => .ok (some ⟨⟨⟨a, b⟩, f.content⟩, f.isSafe⟩)

/-- `SuppressionInsertPoint` with its `line` field (suppression_edit.rs:18-28). -/
structure LinePoint where
  point : InsertPoint
  line : Nat
deriving DecidableEq, Repr

/-- suppression_edit.rs:199, 210, 224, 254, 268, 349: in every branch `line` is the number of newlines before
`offset` in the source given. `none` is a slicing panic. -/
def withLine (source : Str) (p : InsertPoint) : Option LinePoint :=
  match splitAtByte p.offset source with
  | none => none
  | some (before, _) => some ⟨p, countNl before⟩

/-- biome's parser and `covering_element`, see `computeInsertPoint`. -/
abbrev Ancestors := Str → Nat → Nat → Option (List AncestorInfo)

/-- suppression_edit.rs:149-280 `compute_suppression_insert_point`, with the line. -/
def insertPointR (anc : Ancestors) (source : Str) (a b : Nat) : Option LinePoint :=
  match computeInsertPoint source (anc source a b) a with
  | none => none
  | some p => withLine source p

/-- suppression_edit.rs:432-437, server.rs:635-638: the chunk that contains the start of the diagnostic. -/
def lspChunkOf (content : Str) (diagStart : Nat) : Option RChunk :=
  (extractRChunks content).find? (fun c => c.startByte ≤ diagStart && diagStart ≤ c.startByte + blen c.code)

/-- suppression_edit.rs:424-453 `create_suppression_edit_in_rmd`: `offset` is moved to the document, `line` is not. The
outer `none` is a panic, `some none` is `None` (no chunk contains the diagnostic). -/
def insertPointRmd (anc : Ancestors) (content : Str) (a b : Nat) : Option (Option LinePoint) :=
  match lspChunkOf content a with
  | none => some none
  | some c =>
    match insertPointR anc c.code (a - c.startByte) (b - c.startByte) with
    | none => none
    | some lp => some (some { lp with point := { lp.point with offset := lp.point.offset + c.startByte } })

/-- suppression_edit.rs:379-408 `parse_existing_suppression`, without the indentation (not used). The outer `none`: no
suppression; `some none`: a blanket one; `some (some rules)`. -/
def parseExistingSuppression (line : Str) : Option (Option (List Str)) :=
  match stripPrefix (cs! "# jarl-ignore") (trim line) with
  | none => none
  | some after =>
    let after := trimStart after
    if after = [] then some none
    else match splitFirst ':' after with
      | none => none
      | some (rules, _) =>
        let rs := ((splitOn ',' rules).map trim).filter (fun s => s ≠ [])
        if rs = [] then none else some (some rs)

/-- server.rs:544-559: is the rule already named in a suppression on the previous line? -/
def alreadySuppressed (content rule : Str) (lp : LinePoint) : Bool :=
  if lp.line > 0 && !lp.point.needsLeadingNewline then
    match (rustLines content)[lp.line - 1]? with
    | none => false
    | some prev => match parseExistingSuppression prev with
      | some (some rules) => rules.contains rule
      | _ => false
  else false

/-- server.rs:504-605 `diagnostic_to_jarl_ignore_rule_action`, once the insertion point is known (526-541). The outer
`none` is a panic. -/
def ignoreActionAt (content rule : Str) (lp : LinePoint) : Option (Option LspAction) :=
  if alreadySuppressed content rule lp then some none
  else
    let text := formatSuppressionComments [rule] (cs! "<reason>") lp.point.indent lp.point.needsLeadingNewline
    if lp.point.needsLeadingNewline then
      match serverOffsetToPosition content lp.point.offset with
      | none => none
      | some pos => some (some ⟨⟨⟨pos, pos⟩, text⟩, false⟩)
    else
      some (some ⟨⟨⟨⟨lp.line, 0⟩, ⟨lp.line, 0⟩⟩, text⟩, false⟩)

/-- server.rs:526-541: the insertion point; `path` decides between R and Rmd. -/
def ignorePoint (anc : Ancestors) (path content : Str) (f : LspFixData) : Option (Option LinePoint) :=
  if hasRmdExtension path then insertPointRmd anc content f.diagStart f.diagEnd
  else (insertPointR anc content f.diagStart f.diagEnd).map some

/-- server.rs:504-605 `diagnostic_to_jarl_ignore_rule_action`. Outer `none`: panic; inner `none`: no action. -/
def ignoreRuleAction (anc : Ancestors) (path content : Str) (f : LspFixData) : Option (Option LspAction) :=
  match ignorePoint anc path content f with
  | none => none
  | some none => some none
  | some (some lp) => ignoreActionAt content f.ruleName lp

/-- server.rs:655: the comment of the chunk action. -/
def chunkComment (rule : Str) : Str :=
  cs! "#| jarl-ignore-chunk:\n#|   - " ++ rule ++ cs! ": <reason>\n"

/-- server.rs:610-669 `diagnostic_to_jarl_ignore_chunk_action`. -/
def ignoreChunkAction (path content : Str) (f : LspFixData) : Option (Option LspAction) :=
  if !hasRmdExtension path then some none
  else match lspChunkOf content f.diagStart with
    | none => some none
    | some c =>
      if containsSub (cs! "jarl-ignore-chunk " ++ f.ruleName) c.code || containsSub (cs! "- " ++ f.ruleName ++ cs! ":") c.code
      then some none
      else match serverOffsetToPosition content c.startByte with
        | none => none
        | some pos => some (some ⟨⟨⟨pos, pos⟩, chunkComment f.ruleName⟩, false⟩)

end Jarl
