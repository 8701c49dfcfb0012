import Verif.Text
/-!
# Rmd: extraction of R chunks (rmd/extraction.rs)
-/
namespace Jarl

/-- rmd/extraction.rs:12-13: the regex ``^[ \t]*(`{3,})\{[rR][^}]*\}`` applied to one line; the result is
capture group 1. `[ \t]*` and the backticks are followed by a character they do not match, so the greedy
match is the only one. -/
def openFence (line : Str) : Option Str :=
  let rest := line.dropWhile (fun c => c = ' ' || c = '\t')
  let ticks := rest.takeWhile (fun c => c = '`')
  if 3 ≤ ticks.length then
    match rest.dropWhile (fun c => c = '`') with
    | '{' :: c :: opts => if (c = 'r' || c = 'R') && opts.contains '}' then some ticks else none
    | _ => none
  else none

/-- rmd/extraction.rs:16-23 `RCodeChunk`. -/
structure RChunk where
  code : Str
  startByte : Nat
deriving DecidableEq, Repr

/-- rmd/extraction.rs:38-64: the loop over the lines. `offset` is `byte_offset`, `current` the open chunk
(fence, code so far, start byte). -/
def extractLoop (offset : Nat) (current : Option (Str × Str × Nat)) : List Str → List RChunk
  | [] => []
  | line :: lines =>
    match current with
    | some (fence, code, start) =>
      if trim line = fence then ⟨code, start⟩ :: extractLoop (offset + blen line) none lines
      else extractLoop (offset + blen line) (some (fence, code ++ line, start)) lines
    | none =>
      match openFence line with
      | some fence => extractLoop (offset + blen line) (some (fence, [], offset + blen line)) lines
      | none => extractLoop (offset + blen line) none lines

/-- rmd/extraction.rs:31-67 `extract_r_chunks`. -/
def extractRChunks (content : Str) : List RChunk :=
  extractLoop 0 none (splitInclusive '\n' content)

end Jarl
