import Verif.Discovery
import Verif.LspExclude
import Verif.Check
/-!
# Walk: which files `jarl check` looks at
(jarl-core discovery.rs:189-480 `discover_r_file_paths`, jarl commands/check.rs:44-82)

The walker and its patterns belong to the crate `ignore` (0.4.25, with `globset` 0.4.18), which is not in the repository; they are modelled by
their documentation (that of `.gitignore` patterns). Not modelled: character classes `[…]`, alternatives `{…}` and backslashes in
patterns, empty patterns, invalid patterns (skipped with a warning), symbolic links (a link is a file here), the standard input as argument
`-`. What git ignores is a parameter. Paths are absolute and normalised.
-/
namespace Jarl

/-! ## Patterns -/

/-- The ends of a list, from the whole list to the empty one. -/
def tailsOf {α} : List α → List (List α)
  | [] => [[]]
  | x :: xs => (x :: xs) :: tailsOf xs

/-- globset, one component of a pattern: `*` is any text, `?` any character (`literal_separator(true)`: a component never
contains `/`). -/
def segMatch : Str → Str → Bool
  | [], s => s.isEmpty
  | p :: ps, s =>
    if p = '*' then (tailsOf s).any (segMatch ps)
    else match s with
      | [] => false
      | c :: s' => (p = '?' || p = c) && segMatch ps s'

/-- globset, a whole pattern: a component `**` stands for any number of components. -/
def pathMatch : List Str → List Str → Bool
  | [], r => r.isEmpty
  | g :: gs, r =>
    if g = cs! "**" then (tailsOf r).any (pathMatch gs)
    else match r with
      | [] => false
      | x :: r' => segMatch g x && pathMatch gs r'

/-- ignore::gitignore::Glob (its field `actual`, split at `/`). -/
structure WalkGlob where
  segs : List Str
  onlyDir : Bool
  negated : Bool

/-- ignore::gitignore::GitignoreBuilder::add_line, from the place where a leading `!` has been removed. -/
def addLine (negated : Bool) (line : Str) : WalkGlob :=
  let absolute := line.head? = some '/'
  let line := if absolute then line.drop 1 else line
  let onlyDir := endsWith ['/'] line
  let line := if onlyDir then line.dropLast else line
  let actual := if !absolute && !line.contains '/' && line ≠ cs! "**" then cs! "**/" ++ line else line
  let actual := if endsWith (cs! "/**") actual then actual ++ cs! "/*" else actual
  ⟨splitOn '/' actual, onlyDir, negated⟩

/-- Does a pattern match a path of the given kind? (`Gitignore::matched_stripped`, one pattern.) -/
def WalkGlob.hits (g : WalkGlob) (rel : List Str) (isDir : Bool) : Bool := (!g.onlyDir || isDir) && pathMatch g.segs rel

/-- discovery.rs:258-262 and 308-313: `override_builder.add("!{pattern}")`; trailing white space is removed first. -/
def excludeGlob (pattern : Str) : WalkGlob := addLine false (trimEnd pattern)

/-- `overrides.matched(path, is_dir)` is `Match::Ignore`, if all patterns were added with `!` in front: the last pattern that
matches decides, and all decide the same. -/
def excludedBy (patterns : List Str) (rel : List Str) (isDir : Bool) : Bool :=
  patterns.any (fun p => (excludeGlob p).hits rel isDir)

/-- discovery.rs:328-336: a pattern of `include`; `none`: a comment or blank, which `add_line` skips. -/
def includeGlob (pattern : Str) : Option WalkGlob :=
  let line := if endsWith ['/'] pattern then pattern ++ cs! "**" else pattern
  if line.head? = some '#' then none
  else
    let line := trimEnd line
    if line = [] then none
    else if line.head? = some '!' then some (addLine true (line.drop 1)) else some (addLine false line)

/-- discovery.rs:337-346: `overrides.matched(relative, false)` is `Match::Whitelist`: the last pattern that matches decides. -/
def includedBy (patterns : List Str) (rel : List Str) : Bool :=
  match ((patterns.filterMap includeGlob).reverse).find? (fun g => g.hits rel false) with
  | some g => !g.negated
  | none => false

/-! ## The walk -/

/-- Files and directories. -/
inductive FsTree where
  | file
  | dir (entries : List (Str × FsTree))

def FsTree.isDir : FsTree → Bool
  | .file => false
  | .dir _ => true

/-- What is found at a path below a directory. -/
def FsTree.at : FsTree → DPath → Option FsTree
  | t, [] => some t
  | .file, _ :: _ => none
  | .dir es, n :: ns =>
    match es.find? (fun e => e.1 = n) with
    | some (_, t) => t.at ns
    | none => none

/-- What git says about a path: `.gitignore`, `.git/info/exclude` and the global file (`git_ignore(true)` …). -/
inductive GitMatch where
  | none
  | ignore
  | whitelist
deriving DecidableEq

/-- The file name of a path. -/
def fileNameOf (p : DPath) : Str := p.getLast?.getD []

/-- ignore `is_hidden`. -/
def isHidden (p : DPath) : Bool := (fileNameOf p).head? = some '.'

/-- discovery.rs:446: `has_r_extension(path) || has_rmd_extension(path)`. -/
def hasCheckedExtension (p : DPath) : Bool := hasRExtension (fileNameOf p) || hasRmdExtension (fileNameOf p)

/-- ignore `Gitignore::strip`: the path as seen from the root of the patterns; a path elsewhere stays absolute (its text starts
with `/`, so its first component is empty), and with root `.` every path stays absolute. (`strip` compares bytes, not components: a
directory whose name continues the name of the root is also shortened; not modelled.) -/
def stripRoot (root : Option DPath) (p : DPath) : List Str :=
  match root with
  | none => [] :: p
  | some r => if r.isPrefixOf p then p.drop r.length else [] :: p

/-- The patterns of the walker: discovery.rs:237-256. `first` is `resolver.items().first()`. -/
def walkPatterns (first : Option (DPath × ExcludeSettings)) (noDefaultExclude : Bool) : List Str :=
  match first with
  | some (_, s) => s.exclude.getD [] ++ (if s.defaultExclude.getD true then defaultExcludePatterns else [])
  | none => if noDefaultExclude then [] else defaultExcludePatterns

/-- ignore `should_skip_entry` (entries below an argument): first the patterns, then git, then hidden files. -/
def skipEntry (git : DPath → Bool → GitMatch) (first : Option (DPath × ExcludeSettings)) (noDefaultExclude : Bool) (p : DPath)
    (isDir : Bool) : Bool :=
  if excludedBy (walkPatterns first noDefaultExclude) (stripRoot (first.map Prod.fst) p) isDir then true
  else match git p isDir with
    | .ignore => true
    | .whitelist => false
    | .none => isHidden p

mutual
/-- `FilesVisitor::visit` (discovery.rs:417-464) for an entry below an argument, then its children. -/
def visitEntry (skip : DPath → Bool → Bool) (p : DPath) : FsTree → List DPath
  | .file => if hasCheckedExtension p then [p] else []
  | .dir es => visitEntries skip p es

/-- The entries of a directory. -/
def visitEntries (skip : DPath → Bool → Bool) (p : DPath) : List (Str × FsTree) → List DPath
  | [] => []
  | (n, t) :: es =>
    (if skip (p ++ [n]) t.isDir then [] else visitEntry skip (p ++ [n]) t) ++ visitEntries skip p es
end

/-- `FilesVisitor::visit` for an argument (depth 0), which is never skipped; `none`: an error, if it does not exist. -/
def visitArg (skip : DPath → Bool → Bool) (tree : FsTree) (a : DPath) : List (Option DPath) :=
  match tree.at a with
  | none => [none]
  | some .file => [some a]
  | some (.dir es) => (visitEntries skip a es).map some

/-- The filter of discovery.rs:292-352, for one file. -/
def keepFile (items : List (DPath × ExcludeSettings)) (f : DPath) : Bool :=
  match resolvePath items f with
  | none => true
  | some (root, s) =>
    let rel := f.drop root.length
    let ex := s.exclude.getD []
    if !ex.isEmpty && excludedBy ex rel false then false
    else
      let inc := s.include_.getD []
      if !inc.isEmpty && !includedBy inc rel then false else true

/-- discovery.rs:196-356 `discover_r_file_paths` with linter settings (the only use). `none`: an error. -/
def discoverRFiles (tree : FsTree) (git : DPath → Bool → GitMatch) (items : List (DPath × ExcludeSettings))
    (first : Option (DPath × ExcludeSettings)) (noDefaultExclude : Bool) (args : List DPath) : List (Option DPath) :=
  (args.flatMap (visitArg (skipEntry git first noDefaultExclude) tree)).filter
    (fun r => match r with | none => true | some f => keepFile items f)

/-- commands/check.rs:51-54: `--no-default-exclude` in the discovered settings. -/
def overrideDefault (noDefaultExclude : Bool) (items : List (DPath × ExcludeSettings)) : List (DPath × ExcludeSettings) :=
  items.map (fun x => (x.1, if noDefaultExclude then { x.2 with defaultExclude := some false } else x.2))

/-- commands/check.rs:49-71: the files that are checked (`filter_map(Result::ok)`). -/
def checkedFiles (tree : FsTree) (git : DPath → Bool → GitMatch) (items : List (DPath × ExcludeSettings))
    (first : Option (DPath × ExcludeSettings)) (noDefaultExclude : Bool) (args : List DPath) : List DPath :=
  (discoverRFiles tree git items first noDefaultExclude args).filterMap id

/-! ## The walk that looks for configuration files -/

/-- The walker of discovery.rs:127-134 has no patterns: git, then hidden files. -/
def skipNested (git : DPath → Bool → GitMatch) (p : DPath) (isDir : Bool) : Bool :=
  match git p isDir with
  | .ignore => true
  | .whitelist => false
  | .none => isHidden p

mutual
/-- The directories the walker lists, from a directory on (discovery.rs:136-153). -/
def listDirs (skip : DPath → Bool → Bool) (p : DPath) : FsTree → List DPath
  | .file => []
  | .dir es => p :: listDirsIn skip p es

def listDirsIn (skip : DPath → Bool → Bool) (p : DPath) : List (Str × FsTree) → List DPath
  | [] => []
  | (n, t) :: es => (if skip (p ++ [n]) t.isDir then [] else listDirs skip (p ++ [n]) t) ++ listDirsIn skip p es
end

/-- discovery.rs:111-135: the walk below an argument (`ConfigFs.walk`). -/
def nestedWalk (git : DPath → Bool → GitMatch) (tree : FsTree) (p : DPath) : List DPath :=
  match tree.at p with
  | none => []
  | some t => listDirs (skipNested git) p t

/-! ## The threads of the walker -/

/-- discovery.rs:358-387, 466-480: every thread collects the results it is given (`visits`: thread and result, in any order), and
appends them to the shared list when it ends (`ends`: the order in which the threads end). -/
def collectVisits {α} (visits : List (Nat × α)) (ends : List Nat) : List α :=
  ends.flatMap (fun t => (visits.filter (fun v => v.1 = t)).map Prod.snd)

end Jarl
