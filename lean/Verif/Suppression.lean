import Verif.Directive
import Verif.Diagnostic
/-!
# Suppression: collecting suppression comments and filtering diagnostics
(crates/jarl-core/src/suppression.rs)
-/
namespace Jarl

/-- A comment trivia piece: its text and range. -/
structure Comment where
  text : Str
  range : Range
deriving DecidableEq, Repr

/-- A syntax node as the collector sees it: its trimmed range, whether it is an `R_BRACED_EXPRESSIONS`, the
comments biome attached to it (leading, trailing, dangling) and its children in order. The parser and biome's
comment attachment (including suppression.rs:36-76 `place_comment`) are external: any tree is allowed. -/
inductive SynNode where
  | mk (range : Range) (braced : Bool) (leading trailing dangling : List Comment) (children : List SynNode)

def SynNode.range : SynNode → Range | .mk r _ _ _ _ _ => r
def SynNode.braced : SynNode → Bool | .mk _ b _ _ _ _ => b
def SynNode.leading : SynNode → List Comment | .mk _ _ l _ _ _ => l
def SynNode.trailing : SynNode → List Comment | .mk _ _ _ t _ _ => t
def SynNode.dangling : SynNode → List Comment | .mk _ _ _ _ d _ => d
def SynNode.children : SynNode → List SynNode | .mk _ _ _ _ _ c => c

/-- One update of the collector, in the order the traversal of suppression.rs:278-399 makes them. The
traversal never reads the collector, so it is modelled as the list of its updates. -/
inductive Visit where
  /-- a call of `process_comment` (suppression.rs:425): comment, node range, `allow_file_suppression`,
  `is_trailing`, nesting level -/
  | comment (c : Comment) (nodeRange : Range) (allowFile trailing : Bool) (level : Nat)
  /-- suppression.rs:310-327: an item of a Quarto array -/
  | item (p : DirectiveParse) (range : Range)
  /-- suppression.rs:332-335: an array header without items -/
  | emptyHeader (range : Range)
deriving DecidableEq, Repr

/-- suppression.rs:309-330: the results of `parse_quarto_chunk_array_item` that are consumed. -/
def arrayItem (text : Str) : Option DirectiveParse :=
  match parseQuartoItem text with
  | some (.valid (.ignoreChunk r)) => some (.valid (.ignoreChunk r))
  | some .missingExplanation => some .missingExplanation
  | some .invalidRuleName => some .invalidRuleName
  | _ => none

/-- suppression.rs:332-335. -/
def flushHeader : Option (Range × Bool) → List Visit
  | some (h, false) => [.emptyHeader h]
  | _ => []

/-- suppression.rs:293-348: the leading comments of a node. The inner `while` loop is the state `st`: `some (h, found)`
while items of the header at `h` are being consumed. -/
def leadingVisits (nodeRange : Range) (first : Bool) (level : Nat) :
    Option (Range × Bool) → List Comment → List Visit
  | st, [] => flushHeader st
  | some (h, found), c :: cs =>
    match arrayItem c.text with
    | some p => .item p c.range :: leadingVisits nodeRange first level (some (h, true)) cs
    | none =>
      flushHeader (some (h, found)) ++
        if isQuartoHeader c.text then leadingVisits nodeRange first level (some (c.range, false)) cs
        else .comment c nodeRange first false level :: leadingVisits nodeRange first level none cs
  | none, c :: cs =>
    if isQuartoHeader c.text then leadingVisits nodeRange first level (some (c.range, false)) cs
    else .comment c nodeRange first false level :: leadingVisits nodeRange first level none cs

/-- suppression.rs:403-422 `is_same_line_as_code`. A comment starts at a token boundary, so the slicing cannot
panic; the model answers `false` for an impossible offset. -/
def isSameLineAsCode (r : Range) (source : Str) : Bool :=
  if r.start = 0 then false
  else match splitAtByte r.start source with
    | none => false
    | some (before, _) =>
      match splitLast '\n' before with
      | some (_, between) => between.any (fun c => !isWs c)
      | none => before.any (fun c => !isWs c)

mutual
/-- suppression.rs:278-399 `collect_all_directives`. -/
def visitNode (source : Str) (first : Bool) (level : Nat) : SynNode → List Visit
  | .mk range _ leading trailing dangling children =>
    leadingVisits range first level none leading ++
    trailing.map (fun c => .comment c range false (isSameLineAsCode c.range source) level) ++
    dangling.map (fun c => .comment c range false false level) ++
    visitChildren source first level children
/-- suppression.rs:380-398: the children; only the first one may hold file suppressions, and entering braces
increases the level. -/
def visitChildren (source : Str) (first : Bool) (level : Nat) : List SynNode → List Visit
  | [] => []
  | c :: cs =>
    visitNode source first (if c.braced then level + 1 else level) c ++ visitChildren source false level cs
end

/-- suppression.rs:81-88 `SkipRegion`. -/
structure SkipRegion where
  range : Range
  rule : Rule
  comment : Range
deriving DecidableEq, Repr

/-- suppression.rs:92-99 `NodeSuppression`. -/
structure NodeSuppression where
  nodeRange : Range
  rule : Rule
  comment : Range
deriving DecidableEq, Repr

/-- suppression.rs:122-151 `CommentCollector`. `starts` is the `HashMap` as an association list (the value is
the start comment's range; the Rust pair holds it twice). -/
structure Collector where
  starts : List ((Rule × Nat) × Range) := []
  regions : List SkipRegion := []
  file : List (Rule × Range) := []
  chunk : List (Rule × Range) := []
  node : List NodeSuppression := []
  blanket : List Range := []
  invalidChunk : List Range := []
  unexplained : List Range := []
  misplacedFile : List Range := []
  misplaced : List Range := []
  misnamed : List Range := []
  unmatchedEnd : List Range := []
  hasValid : Bool := false
deriving DecidableEq, Repr

/-- `HashMap::remove`: the other entries. -/
def eraseKey (k : Rule × Nat) (l : List ((Rule × Nat) × Range)) : List ((Rule × Nat) × Range) :=
  l.filter (fun p => p.1 ≠ k)

/-- `HashMap::get`/`remove`: the value. -/
def getKey (k : Rule × Nat) (l : List ((Rule × Nat) × Range)) : Option Range :=
  (l.find? (fun p => p.1 = k)).map (·.2)

/-- suppression.rs:441-489: a valid directive in an accepted position. `none` is the panic of `TextRange::new`
when the end comment lies before the start comment. -/
def applyDirective (col : Collector) (d : LintDirective) (c nodeRange : Range) (allowFile : Bool) (level : Nat) :
    Option Collector :=
  let col := { col with hasValid := true }
  match d with
  | .ignoreStart r => some { col with starts := ((r, level), c) :: eraseKey (r, level) col.starts }
  | .ignoreEnd r =>
    match getKey (r, level) col.starts with
    | some s =>
      match Range.new s.start c.stop with
      | none => none
      | some range =>
        some { col with starts := eraseKey (r, level) col.starts, regions := col.regions ++ [⟨range, r, s⟩] }
    | none => some { col with unmatchedEnd := col.unmatchedEnd ++ [c] }
  | .ignoreChunk _ => some { col with invalidChunk := col.invalidChunk ++ [c] }
  | .ignoreFile r =>
    if allowFile then some { col with file := col.file ++ [(r, c)] }
    else some { col with misplacedFile := col.misplacedFile ++ [c] }
  | .ignore r => some { col with node := col.node ++ [⟨nodeRange, r, c⟩] }

/-- suppression.rs:425-521 `process_comment`. -/
def processComment (col : Collector) (c : Comment) (nodeRange : Range) (allowFile trailing : Bool) (level : Nat) :
    Option Collector :=
  match parseCommentDirective c.text with
  | some (.valid d) =>
    if trailing then some { col with misplaced := col.misplaced ++ [c.range] }
    else applyDirective col d c.range nodeRange allowFile level
  | some .blanket =>
    if trailing then some { col with misplaced := col.misplaced ++ [c.range] }
    else some { col with blanket := col.blanket ++ [c.range] }
  | some .missingExplanation =>
    if trailing then some { col with misplaced := col.misplaced ++ [c.range] }
    else some { col with unexplained := col.unexplained ++ [c.range] }
  | some .invalidRuleName =>
    if trailing then some { col with misplaced := col.misplaced ++ [c.range] }
    else some { col with misnamed := col.misnamed ++ [c.range] }
  | none => some col

/-- One collector update. -/
def applyVisit (col : Collector) : Visit → Option Collector
  | .comment c nr af tr lv => processComment col c nr af tr lv
  | .item (.valid (.ignoreChunk r)) range =>
    some { col with hasValid := true, chunk := col.chunk ++ [(r, range)] }
  | .item .missingExplanation range => some { col with unexplained := col.unexplained ++ [range] }
  | .item .invalidRuleName range => some { col with misnamed := col.misnamed ++ [range] }
  | .item _ _ => some col
  | .emptyHeader range => some { col with blanket := col.blanket ++ [range] }

/-- All updates in order. -/
def runVisits (col : Collector) : List Visit → Option Collector
  | [] => some col
  | v :: vs => match applyVisit col v with
    | none => none
    | some col' => runVisits col' vs

/-- suppression.rs:175-208 `SuppressionManager` (without biome's comment map). -/
structure Manager where
  regions : List SkipRegion := []
  file : List (Rule × Range) := []
  chunk : List (Rule × Range) := []
  node : List NodeSuppression := []
  hasAny : Bool := false
  blanket : List Range := []
  invalidChunk : List Range := []
  unmatchedStart : List Range := []
  unmatchedEnd : List Range := []
  unexplained : List Range := []
  misplacedFile : List Range := []
  misplaced : List Range := []
  misnamed : List Range := []
deriving DecidableEq, Repr

/-- suppression.rs:247-274: the manager made from the collector (`starts.drain()` yields the leftovers in an
unspecified order; here in list order). -/
def Collector.finish (c : Collector) : Manager :=
  { regions := c.regions, file := c.file, chunk := c.chunk, node := c.node,
    hasAny := !c.regions.isEmpty || !c.file.isEmpty || !c.chunk.isEmpty || c.hasValid,
    blanket := c.blanket, invalidChunk := c.invalidChunk, unmatchedStart := c.starts.map (·.2),
    unmatchedEnd := c.unmatchedEnd, unexplained := c.unexplained, misplacedFile := c.misplacedFile,
    misplaced := c.misplaced, misnamed := c.misnamed }

/-- suppression.rs:238-274: the slow path of `from_node`. -/
def collect (root : SynNode) (source : Str) : Option Manager :=
  (runVisits {} (visitNode source true 0 root)).map Collector.finish

/-- suppression.rs:218-275 `SuppressionManager::from_node`; `none` = panic. -/
def fromNode (root : SynNode) (source : Str) : Option Manager :=
  if !containsSub (cs! "jarl-ignore") source then some {}
  else collect root source

/-- suppression.rs:631-669 `is_diagnostic_suppressed`: the comment marked as used, if suppressed. -/
def suppressedBy (m : Manager) (d : Diagnostic) : Option Range :=
  match Rule.fromName d.name with
  | none => none
  | some rule =>
    match m.file.find? (fun s => s.1 = rule) with
    | some s => some s.2
    | none =>
    match m.chunk.find? (fun s => s.1 = rule) with
    | some s => some s.2
    | none =>
    match m.regions.find? (fun s => s.rule = rule && s.range.contains d.range) with
    | some s => some s.comment
    | none =>
    match m.node.find? (fun s => s.rule = rule && s.nodeRange.contains d.range) with
    | some s => some s.comment
    | none => none

/-- suppression.rs:618-628 `filter_diagnostics`, threading `used_suppressions`. -/
def filterLoop (m : Manager) : List Diagnostic → List Range → List Diagnostic × List Range
  | [], used => ([], used)
  | d :: ds, used =>
    match suppressedBy m d with
    | some c => filterLoop m ds (c :: used)
    | none => let (kept, used') := filterLoop m ds used; (d :: kept, used')

/-- suppression.rs:618-628 `filter_diagnostics` (with its fast path). -/
def filterDiagnostics (m : Manager) (ds : List Diagnostic) : List Diagnostic × List Range :=
  if !m.hasAny then (ds, []) else filterLoop m ds []

/-- suppression.rs:673-705 `get_unused_suppressions`. -/
def unusedSuppressions (m : Manager) (used : List Range) : List Range :=
  (m.file.map (·.2)).filter (fun r => !used.contains r) ++
  (m.chunk.map (·.2)).filter (fun r => !used.contains r) ++
  (m.regions.map (·.comment)).filter (fun r => !used.contains r) ++
  (m.node.map (·.comment)).filter (fun r => !used.contains r)

end Jarl
