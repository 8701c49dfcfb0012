import Verif.Rmd
/-!
# Specification of R chunks in a document (C14)
-/
namespace Jarl.Spec

/-- A line that opens an R chunk with this backtick fence: optional spaces and tabs, three or more backticks,
`{r` or `{R`, anything up to a `}`, anything. -/
def OpensChunk (line fence : Str) : Prop :=
  ∃ indent r opts rest, line = indent ++ fence ++ '{' :: r :: opts ++ '}' :: rest ∧
    (∀ c ∈ indent, c = ' ' ∨ c = '\t') ∧ (∀ c ∈ fence, c = '`') ∧ 3 ≤ fence.length ∧ (r = 'r' ∨ r = 'R')

/-- `ChunkAt lines pre body chunk`: in the lines of the document, after the lines `pre` (the last of which opens a
chunk), come the lines `body`, none of which closes it, and then a line that closes it. -/
def ChunkAt (lines : List Str) (chunk : RChunk) : Prop :=
  ∃ pre opening fence body closing post,
    lines = pre ++ opening :: body ++ closing :: post ∧
    OpensChunk opening fence ∧ trim closing = fence ∧ (∀ l ∈ body, trim l ≠ fence) ∧
    chunk.code = body.flatten ∧ chunk.startByte = blen (pre ++ [opening]).flatten

/-- Reading a document from top to bottom: the chunks of the lines that remain when `offset` bytes were read. -/
inductive Chunks : Nat → List Str → List RChunk → Prop
  /-- the end -/
  | nil {offset} : Chunks offset [] []
  /-- a line outside chunks that opens none -/
  | text {offset line lines cs} : (¬ ∃ f, OpensChunk line f) → Chunks (offset + blen line) lines cs →
      Chunks offset (line :: lines) cs
  /-- a chunk: opening line, body, closing line, rest of the document -/
  | chunk {offset opening fence body closing post cs} : OpensChunk opening fence → trim closing = fence →
      (∀ l ∈ body, trim l ≠ fence) →
      Chunks (offset + blen (opening :: body ++ [closing]).flatten) post cs →
      Chunks offset (opening :: body ++ closing :: post) (⟨body.flatten, offset + blen opening⟩ :: cs)
  /-- a chunk that is never closed yields nothing -/
  | unclosed {offset opening fence body} : OpensChunk opening fence → (∀ l ∈ body, trim l ≠ fence) →
      Chunks offset (opening :: body) []

end Jarl.Spec
