import Verif.Text
/-!
# LspExclude: which files the language server lints (crates/jarl-lsp/src/utils.rs)

Paths are strings (`to_string_lossy`).
-/
namespace Jarl

/-- Rust `str::ends_with`. -/
def endsWith (suf s : Str) : Bool := startsWith suf.reverse s.reverse

/-- `haystack.find(needle)`, as the two slices around the first occurrence. -/
def findSub (needle : Str) : Str → Option (Str × Str)
  | [] => if needle = [] then some ([], []) else none
  | c :: cs =>
    match stripPrefix needle (c :: cs) with
    | some r => some ([], r)
    | none => match findSub needle cs with
      | some (a, b) => some (c :: a, b)
      | none => none

/-- utils.rs:17: `path.replace('\\', "/")`. -/
def normalizeSeps (path : Str) : Str := path.map (fun c => if c = '\\' then '/' else c)

/-- utils.rs:34-37, 78-80: the last component (`split` always yields one). -/
def lastComponent (np : Str) : Str := (splitOn '/' np).getLast?.getD np

/-- utils.rs:61-72: the literal parts after the first one are searched one after the other; `rest` is
`filename[pos..]`. -/
def partsInOrder : List Str → Str → Bool
  | [], _ => true
  | p :: ps, rest =>
    match findSub p rest with
    | some (_, after) => partsInOrder ps after
    | none => false

/-- utils.rs:32-74: the glob branch. -/
def globBranch (pattern filename : Str) : Bool :=
  let parts := splitOn '*' pattern
  match parts with
  | [] => false
  | p0 :: ps =>
    match stripPrefix p0 filename with
    | none => false
    | some rest =>
      if ps ≠ [] ∧ endsWith (parts.getLast?.getD []) filename = false then false
      else partsInOrder ps rest

/-- utils.rs:15-83 `matches_pattern`. -/
def matchesPattern (path pattern : Str) : Bool :=
  let np := normalizeSeps path
  if endsWith ['/'] pattern then
    let dir := (pattern.reverse.dropWhile (· = '/')).reverse
    (splitOn '/' np).any (fun c => decide (c = dir))
  else if '*' ∈ pattern then globBranch pattern (lastComponent np)
  else decide (lastComponent np = pattern)

/-- discovery.rs:23-31 `DEFAULT_EXCLUDE_PATTERNS`. -/
def defaultExcludePatterns : List Str :=
  [cs! ".git/", cs! "renv/", cs! "revdep/", cs! "cpp11.R", cs! "RcppExports.R", cs! "extendr-wrappers.R",
   cs! "import-standalone-*.R"]

/-- The fields of settings.rs:16-29 `LinterSettings` read here. -/
structure ExcludeSettings where
  defaultExclude : Option Bool := none
  exclude : Option (List Str) := none
  include_ : Option (List Str) := none

/-- utils.rs:88-103 `should_exclude_file`. -/
def shouldExcludeFile (path : Str) (patterns : List Str) : Bool := patterns.any (matchesPattern path)

/-- utils.rs:115-163 `should_exclude_file_based_on_settings`; the argument is `resolver.items().first()`. -/
def shouldExcludeBySettings (path : Str) : Option ExcludeSettings → Bool
  | none => false
  | some s =>
    let patterns := (if s.defaultExclude.getD true then defaultExcludePatterns else []) ++ s.exclude.getD []
    if !patterns.isEmpty && shouldExcludeFile path patterns then true
    else match s.include_ with
      | some inc => if !inc.isEmpty && !(inc.any (matchesPattern path)) then true else false
      | none => false

end Jarl
