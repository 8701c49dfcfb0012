import Verif.Discovery
import Verif.Description
import Verif.Diagnostic
import Verif.LspExclude
/-!
# Package: the analyses over all files of an R package
(jarl-core package.rs, lints/base/duplicated_function_definition, lints/base/unused_function)

Paths are lists of components; `relativize_path` is the identity and `canonicalize` too (no symbolic links). Hash maps
with counters are lists of occurrences, hash maps keyed by path are lists of entries. Columns of definitions are
always 1 (definitions are unindented).
-/
namespace Jarl

/-! ## Scanning files -/

/-- `c == '.' || c == '_'`. -/
def dotUnder (c : Char) : Bool := c == '.' || c == '_'

/-- unused_function.rs:202: first character of an identifier (ASCII only). -/
def symStart (c : Char) : Bool := c.isAlpha || dotUnder c

/-- unused_function.rs:205-206: other characters of an identifier (ASCII only). -/
def symChar (c : Char) : Bool := c.isAlphanum || dotUnder c

/-- unused_function.rs:194-215: the identifiers of a line. Scanning bytes or characters is the same: only ASCII characters belong to
identifiers. -/
def symbolsOf : Nat → Str → List Str
  | 0, _ => []
  | _ + 1, [] => []
  | n + 1, c :: cs =>
    if symStart c then (c :: cs.takeWhile symChar) :: symbolsOf n (cs.dropWhile symChar) else symbolsOf n cs

/-- unused_function.rs:187-192: comments are skipped, roxygen comments are not. -/
def skippedComment (line : Str) : Bool :=
  startsWith ['#'] (trimStart line) && !startsWith ['#', '\''] (trimStart line)

/-- unused_function.rs:183-222 `scan_symbols`. The counters of the map are the numbers of occurrences in the list. -/
def scanSymbols (content : Str) : List Str :=
  (rustLines content).flatMap (fun l => if skippedComment l then [] else symbolsOf l.length l)

/-- duplicated_function_definition.rs:76-78: `char::is_alphanumeric` is the parameter `alnum`. -/
def wordChar (alnum : Char → Bool) (c : Char) : Bool := alnum c || dotUnder c

/-- duplicated_function_definition.rs:85-91: behind `<-` or `=`. -/
def afterAssign (s : Str) : Option Str :=
  match stripPrefix ['<', '-'] s with
  | some r => some (trimStart r)
  | none => if startsWith ['='] s && !startsWith ['=', '='] s then some (trimStart (s.drop 1)) else none

/-- duplicated_function_definition.rs:95-99: `function` or a lambda. -/
def isFunctionRhs (alnum : Char → Bool) (rhs : Str) : Bool :=
  (match stripPrefix (cs! "function") rhs with
   | some [] => true
   | some (c :: _) => !wordChar alnum c
   | none => false) || startsWith ['\\'] rhs

/-- duplicated_function_definition.rs:70-112: the name defined by a line (without its terminator). -/
def definedName (alnum : Char → Bool) (line : Str) : Option Str :=
  match line with
  | [] => none
  | c :: _ =>
    if isWs c || c == '#' then none
    else
      let name := line.takeWhile (wordChar alnum)
      if name = [] then none
      else match afterAssign (trimStart (line.dropWhile (wordChar alnum))) with
        | none => none
        | some rhs => if isFunctionRhs alnum rhs then some name else none

/-- duplicated_function_definition.rs:65-67: `trim_end_matches('\n').trim_end_matches('\r')`. -/
def stripEols (l : Str) : Str :=
  ((l.reverse.dropWhile (· == '\n')).dropWhile (· == '\r')).reverse

/-- package.rs:37: a top-level function assignment: name, range of the name, line. -/
structure Assign where
  name : Str
  range : Range
  line : Nat
deriving DecidableEq, Repr

/-- duplicated_function_definition.rs:58-121 `scan_top_level_assignments`: the loop over the lines. -/
def scanLines (alnum : Char → Bool) : Nat → Nat → List Str → List Assign
  | _, _, [] => []
  | off, no, l :: ls =>
    match definedName alnum (stripEols l) with
    | some name => ⟨name, ⟨off, off + blen name⟩, no⟩ :: scanLines alnum (off + blen l) (no + 1) ls
    | none => scanLines alnum (off + blen l) (no + 1) ls

def scanAssigns (alnum : Char → Bool) (content : Str) : List Assign :=
  scanLines alnum 0 1 (splitInclusive '\n' content)

/-! ## Files of a package -/

/-- package.rs:20-29 `FileScope`. -/
inductive PScope
  | r | tests | inst | src
deriving DecidableEq, Repr

/-- package.rs:32-41 `SharedFileData`. `root_key` is the R directory of the package. -/
structure SharedFile where
  rootKey : DPath
  path : DPath
  pkgRoot : DPath
  assigns : List Assign
  symbols : List Str
  scope : PScope
deriving DecidableEq, Repr

/-! ## Duplicated definitions -/

/-- A report: name, range of the name, and where the first definition is (file, line). -/
structure DupReport where
  name : Str
  range : Range
  firstFile : DPath
  firstLine : Nat
deriving DecidableEq, Repr

/-- duplicated_function_definition.rs:147-159: the definitions of one file; `seen` are the first definitions so far. -/
def dupFile (path : DPath) : List (Str × DPath × Nat) → List Assign → List (Str × DPath × Nat) × List DupReport
  | seen, [] => (seen, [])
  | seen, a :: as =>
    match seen.find? (fun e => e.1 = a.name) with
    | some e =>
      let r := dupFile path seen as
      (r.1, ⟨a.name, a.range, e.2.1, e.2.2⟩ :: r.2)
    | none => dupFile path (seen ++ [(a.name, path, a.line)]) as

/-- duplicated_function_definition.rs:138-165: the sorted files of a package. -/
def dupFiles : List (Str × DPath × Nat) → List SharedFile → List (DPath × List DupReport)
  | _, [] => []
  | seen, f :: fs =>
    let r := dupFile f.path seen f.assigns
    (if r.2 = [] then [] else [(f.path, r.2)]) ++ dupFiles r.1 fs

/-- duplicated_function_definition.rs:126-169 `compute_duplicates_from_shared`, for an order `keys` of the packages; `le` is the
order of paths. The result is the list of insertions into the result map. -/
def computeDuplicates (le : DPath → DPath → Bool) (keys : List DPath) (data : List SharedFile) :
    List (DPath × List DupReport) :=
  keys.flatMap (fun k =>
    dupFiles [] ((data.filter (fun f => f.scope = .r && f.rootKey = k)).mergeSort (fun a b => le a.path b.path)))

/-- `HashMap::insert` replaces: the last entry counts. -/
def lastEntry {α} (p : DPath) (m : List (DPath × α)) : Option α := (m.reverse.find? (fun e => e.1 = p)).map Prod.snd

/-- check.rs:147-152: the reports of a file, `pkg.….get(file).cloned().unwrap_or_default()`. -/
def reportsFor {α} (p : DPath) (m : List (DPath × List α)) : List α := (lastEntry p m).getD []

/-! ## NAMESPACE -/

/-- unused_function.rs:71-76: the directive is the end of a longer word. -/
def wordBefore (before : Str) : Bool :=
  match before.getLast? with
  | some c => c.isAlphanum || c == '_'
  | none => false

/-- unused_function.rs:58-82 `extract_directive`. -/
def extractDirective (line directive : Str) : Option Str :=
  match findSub (directive ++ ['(']) line with
  | none => none
  | some (before, rest) =>
    if wordBefore before then none
    else (splitLast ')' rest).map Prod.fst

/-- `trim_matches(c)`. -/
def trimMatches (c : Char) (s : Str) : Str := (((s.dropWhile (· == c)).reverse).dropWhile (· == c)).reverse

/-- `name.trim().trim_matches('"').trim_matches('\'')`. -/
def unquote (s : Str) : Str := trimMatches '\'' (trimMatches '"' (trim s))

/-- unused_function.rs:114-119, 157-164: a list of names. -/
def exportNames (inner : Str) : List Str := ((splitOn ',' inner).map unquote).filter (fun n => n ≠ [])

/-- `rsplit_once("::")`, the part behind. -/
def afterColons (s : Str) : Str :=
  match findSub [':', ':'] s.reverse with
  | some (a, _) => a.reverse
  | none => s

/-- unused_function.rs:131-156: `S3method(generic, class[, function])`. -/
def s3Names (inner : Str) : List Str :=
  match splitOn ',' inner with
  | _ :: _ :: f :: _ => if unquote f = [] then [] else [unquote f]
  | [g, c] => [afterColons (unquote g) ++ ['.'] ++ unquote c]
  | _ => []

/-- unused_function.rs:121-130: `exportPattern(regex)`. `re` compiles a pattern. -/
def patternNames (re : Str → Option (Str → Bool)) (all : List Str) (inner : Str) : List Str :=
  match re (unquote inner) with
  | some m => all.filter m
  | none => []

/-- unused_function.rs:92-170: one line of NAMESPACE: the first directive found counts. -/
def namespaceLine (re : Str → Option (Str → Bool)) (all : List Str) (line : Str) : List Str :=
  let t := trim line
  if t = [] || startsWith ['#'] t then []
  else match extractDirective t (cs! "export") with
    | some inner => exportNames inner
    | none => match extractDirective t (cs! "exportPattern") with
      | some inner => patternNames re all inner
      | none => match extractDirective t (cs! "S3method") with
        | some inner => s3Names inner
        | none => match extractDirective t (cs! "exportMethods") with
          | some inner => exportNames inner
          | none => match extractDirective t (cs! "exportClasses") with
            | some inner => exportNames inner
            | none => []

/-- unused_function.rs:89-173 `parse_namespace_exports`. -/
def namespaceExports (re : Str → Option (Str → Bool)) (all : List Str) (content : Str) : List Str :=
  (rustLines content).flatMap (namespaceLine re all)

/-! ## Unused functions -/

/-- unused_function.rs:356-364. -/
def packageHooks : List Str :=
  [cs! ".onLoad", cs! "on_load", cs! ".onAttach", cs! ".onDetach", cs! ".onUnload", cs! ".Last.lib", cs! ".First.lib"]

/-- unused_function.rs:396-403: the part before some dot is a symbol of the package. -/
def probableS3 (symbols : List Str) : Str → Str → Bool
  | _, [] => false
  | pre, c :: cs => (c == '.' && symbols.contains pre) || probableS3 symbols (pre ++ [c]) cs

/-- A report: name, range of the name, line. -/
structure UnusedReport where
  name : Str
  range : Range
  line : Nat
deriving DecidableEq, Repr

/-- What `compute_unused_from_shared` gets besides the files: `options.is_skipped` and the regex engine. -/
structure UnusedEnv where
  skipped : Str → Bool
  re : Str → Option (Str → Bool)

/-- The number of occurrences of `name` in the files (the hash maps `total_occurrences`, unused_function.rs:331-337, and
`scope_occurrences`, 435-441). -/
def occurrencesIn (fs : List SharedFile) (name : Str) : Nat := (fs.flatMap (·.symbols)).count name

/-- The number of definitions of `name` in the files (339-345, 443-449). -/
def definitionsIn (fs : List SharedFile) (name : Str) : Nat := ((fs.flatMap (·.assigns)).map (·.name)).count name

/-- unused_function.rs:372-418: is a definition in R/ reported? `rfiles`: the files of R/, `extra`: the others, `exports`: the
names exported by NAMESPACE. -/
def unusedInR (env : UnusedEnv) (exports : List Str) (rfiles extra : List SharedFile) (a : Assign) : Bool :=
  !exports.contains a.name && !packageHooks.contains a.name && !env.skipped a.name &&
  !probableS3 (rfiles.flatMap (·.symbols)) [] a.name &&
  (decide (occurrencesIn rfiles a.name ≤ definitionsIn rfiles a.name) && !(extra.flatMap (·.symbols)).contains a.name)

/-- unused_function.rs:454-470: is a definition in tests/ or inst/ reported? -/
def unusedInScope (env : UnusedEnv) (files : List SharedFile) (a : Assign) : Bool :=
  !env.skipped a.name && decide (occurrencesIn files a.name ≤ definitionsIn files a.name)

/-- The reports of one file. -/
def unusedReports (p : Assign → Bool) (f : SharedFile) : List UnusedReport :=
  (f.assigns.filter p).map (fun a => ⟨a.name, a.range, a.line⟩)

/-- A change of the result map: `insert` (unused_function.rs:420-422) or `entry().or_default().extend()` (473-478). -/
inductive MapOp (α : Type)
  | insert (p : DPath) (l : List α)
  | extend (p : DPath) (l : List α)

/-- Only non-empty lists reach the map (unused_function.rs:420, 473). -/
def nonEmptyOp {α} (mk : DPath → List α → MapOp α) (p : DPath) (l : List α) : List (MapOp α) :=
  match l with
  | [] => []
  | _ :: _ => [mk p l]

/-- The entry of `p` after one change. -/
def applyOp {α} (p : DPath) (acc : List α) : MapOp α → List α
  | .insert q l => if q = p then l else acc
  | .extend q l => if q = p then acc ++ l else acc

/-- The entry of `p` (empty if there is none, check.rs:152) after all changes. -/
def entryAfter {α} (p : DPath) (ops : List (MapOp α)) : List α := ops.foldl (applyOp p) []

/-- unused_function.rs:294-481: one package, `files` being all its files. -/
def unusedPackage (env : UnusedEnv) (namespaces : DPath → Option Str) (files : List SharedFile) : List (MapOp UnusedReport) :=
  let rfiles := files.filter (fun f => f.scope = .r)
  match rfiles with
  | [] => []
  | first :: _ =>
    match namespaces first.pkgRoot with
    | none => []
    | some ns =>
      let exports := namespaceExports env.re ((rfiles.flatMap (·.assigns)).map (·.name)) ns
      let extra := files.filter (fun f => f.scope ≠ .r)
      let tests := files.filter (fun f => f.scope = .tests)
      let inst := files.filter (fun f => f.scope = .inst)
      rfiles.flatMap (fun f => nonEmptyOp .insert f.path (unusedReports (unusedInR env exports rfiles extra) f)) ++
      tests.flatMap (fun f => nonEmptyOp .extend f.path (unusedReports (unusedInScope env tests) f)) ++
      inst.flatMap (fun f => nonEmptyOp .extend f.path (unusedReports (unusedInScope env inst) f))

/-- unused_function.rs:281-484 `compute_unused_from_shared`, for an order `keys` of the packages: all changes of the result map. -/
def computeUnused (env : UnusedEnv) (namespaces : DPath → Option Str) (keys : List DPath) (data : List SharedFile) :
    List (MapOp UnusedReport) :=
  keys.flatMap (fun k => unusedPackage env namespaces (data.filter (fun f => f.rootKey = k)))

/-! ## The whole analysis -/

/-- The disk as seen by `compute_package_analysis`: which directories contain a DESCRIPTION file, file contents, and
the files below a directory (`collect_files`, recursively, in some order; `[]` if it is not a directory). -/
structure PkgFs where
  description : DPath → Bool
  read : DPath → Option Str
  below : DPath → List DPath

/-- The extension of a file name: behind the last dot, unless that is the first character. -/
def fileExt (p : DPath) : Option Str :=
  match p.getLast? with
  | none => none
  | some n => match splitLast '.' n with
    | some (a, e) => if a = [] then none else some e
    | none => none

/-- fs.rs:12-20 `has_r_extension`. -/
def isRFile (p : DPath) : Bool := fileExt p = some ['r'] || fileExt p = some ['R']

/-- unused_function.rs:245-250 `has_cpp_extension`. -/
def isCppFile (p : DPath) : Bool :=
  fileExt p = some (cs! "c") || fileExt p = some (cs! "cpp") || fileExt p = some (cs! "h") || fileExt p = some (cs! "hpp")

/-- `Path::parent`. -/
def parentDir (p : DPath) : Option DPath := if p = [] then none else some p.dropLast

/-- package.rs:76-105: the file lies directly in the R directory of a package. -/
def inPackageR (fs : PkgFs) (p : DPath) : Bool :=
  isRFile p && (match parentDir p with
    | none => false
    | some d => match d.getLast? with
      | some n => n = ['R'] && fs.description d.dropLast
      | none => false)

/-- package.rs:240-261 `file_scope_from_path`: all components of the path are looked at. -/
def fileScope : DPath → PScope
  | [] => .tests
  | c :: cs =>
    if c = cs! "tests" then .tests
    else if c = cs! "inst" then
      (match cs with
       | n :: _ => if n = cs! "tinytest" || n = cs! "tests" then .inst else fileScope cs
       | [] => fileScope cs)
    else if c = cs! "src" then .src
    else fileScope cs

/-- package.rs:264-272 `find_package_root`: the closest directory above the file with a DESCRIPTION file. -/
def findPkgRoot (fs : PkgFs) (p : DPath) : Option DPath :=
  match parentDir p with
  | none => none
  | some d => (ancestors d).find? fs.description

/-- package.rs:173-219: one file. `none`: not readable or no package root. -/
def scanFile (alnum : Char → Bool) (unused : Bool) (fs : PkgFs) (p : DPath) (scope : PScope) : Option SharedFile :=
  match fs.read p with
  | none => none
  | some content =>
    let syms := if unused then scanSymbols content else []
    let asg := if scope = .src then [] else scanAssigns alnum content
    if scope = .r then
      match parentDir p with
      | none => none
      | some d => match parentDir d with
        | none => none
        | some root => some ⟨d, p, root, asg, syms, .r⟩
    else
      match findPkgRoot fs p with
      | none => none
      | some root => some ⟨root ++ [['R']], p, root, asg, syms, scope⟩

/-- package.rs:119-158: the files of R/ that were not given, and the other files, of one package. -/
def excludedR (fs : PkgFs) (given : List DPath) (root : DPath) : List DPath :=
  ((fs.below (root ++ [['R']])).filter isRFile).filter (fun p => !given.contains p)

def extraFiles (fs : PkgFs) (root : DPath) : List DPath :=
  ((fs.below (root ++ [cs! "inst", cs! "tinytest"])).filter isRFile) ++ ((fs.below (root ++ [cs! "inst", cs! "tests"])).filter isRFile) ++
  ((fs.below (root ++ [cs! "tests"])).filter isRFile) ++ ((fs.below (root ++ [cs! "src"])).filter isCppFile)

/-- package.rs:95-219: all scanned files, for an order `roots` of the package directories (a hash set). -/
def sharedData (alnum : Char → Bool) (unused : Bool) (fs : PkgFs) (roots : List DPath) (paths : List DPath) : List SharedFile :=
  let given := paths.filter (inPackageR fs)
  given.filterMap (fun p => scanFile alnum unused fs p .r) ++
  (roots.flatMap (excludedR fs given)).filterMap (fun p => scanFile alnum unused fs p .r) ++
  (if unused then (roots.flatMap (extraFiles fs)).filterMap (fun p => scanFile alnum unused fs p (fileScope p)) else [])

/-- package.rs:114-117: the package directories. -/
def packageRoots (fs : PkgFs) (paths : List DPath) : List DPath :=
  ((paths.filter (inPackageR fs)).map (fun p => p.dropLast.dropLast)).eraseDups

/-- package.rs:153-157: the NAMESPACE files of the packages. -/
def namespaceContents (fs : PkgFs) (roots : List DPath) (r : DPath) : Option Str :=
  if r ∈ roots then fs.read (r ++ [cs! "NAMESPACE"]) else none

end Jarl
