import Verif.Walk
/-!
# Specification: which files are checked
-/
namespace Jarl.Spec
open Jarl

/-! ## The meaning of a pattern (that of `.gitignore`) -/

/-- `*` stands for any text, `?` for any character, every other character for itself. -/
inductive Wild : Str → Str → Prop
  | nil : Wild [] []
  | star {p s} (g : Str) : Wild p s → Wild ('*' :: p) (g ++ s)
  | one {p s} (c : Char) : Wild p s → Wild ('?' :: p) (c :: s)
  | lit {c p s} : c ≠ '*' → c ≠ '?' → Wild p s → Wild (c :: p) (c :: s)

/-- Component by component; `**` stands for any number of components. -/
inductive Along : List Str → List Str → Prop
  | nil : Along [] []
  | any {gs r} (q : List Str) : Along gs r → Along (cs! "**" :: gs) (q ++ r)
  | step {g gs x r} : g ≠ cs! "**" → Wild g x → Along gs r → Along (g :: gs) (x :: r)

/-- `Hits pattern path isDir`: the pattern matches the path (as seen from the directory of the configuration file), which is a directory
or a file.
* `everything`: `**` is everything;
* `name`: a pattern without slash is a name, in any directory;
* `path`: a pattern with a slash inside is a path from the directory of the configuration file;
* `rooted`: so is one with a slash in front;
* `inside`, `rootedInside`: `dir/**` is everything inside `dir`;
* `folder`: with a slash at the end, only directories. -/
inductive Hits : Str → List Str → Bool → Prop
  | everything {r d} : Hits (cs! "**") r d
  | name {n q x d} : '/' ∉ n → Wild n x → Hits n (q ++ [x]) d
  | path {p r d} : '/' ∈ p → p.head? ≠ some '/' → ¬ ['/'] <:+ p → ¬ cs! "/**" <:+ p → Along (splitOn '/' p) r → Hits p r d
  | rooted {p r d} : ¬ ['/'] <:+ p → ¬ cs! "/**" <:+ p → Along (splitOn '/' p) r → Hits ('/' :: p) r d
  | inside {p r q d} : p ≠ [] → p.head? ≠ some '/' → Along (splitOn '/' p) r → q ≠ [] → Hits (p ++ cs! "/**") (r ++ q) d
  | rootedInside {p r q d} : Along (splitOn '/' p) r → q ≠ [] → Hits ('/' :: (p ++ cs! "/**")) (r ++ q) d
  | folder {p r} : p ≠ [] → ¬ ['/'] <:+ p → Hits p r true → Hits (p ++ ['/']) r true

/-- One of the patterns matches. -/
def AnyHits (patterns : List Str) (r : List Str) (d : Bool) : Prop := ∃ p ∈ patterns, Hits p r d

/-- What `include` means: `dir/` is everything inside the directory `dir` next to the configuration file. -/
def IncludeHits (p : Str) (r : List Str) : Prop :=
  (∃ d, p = d ++ ['/'] ∧ Hits (d ++ cs! "/**") r false) ∨ (¬ ['/'] <:+ p ∧ Hits p r false)

/-- The patterns the model covers: not empty, no white space at the end. -/
def OkPattern (p : Str) : Prop := p ≠ [] ∧ trimEnd p = p

/-- A pattern of `include` the model covers: moreover not a comment and not a negation. -/
def OkInclude (p : Str) : Prop := OkPattern p ∧ p.head? ≠ some '#' ∧ p.head? ≠ some '!'

/-! ## Which files are checked -/

/-- The path of `p` as seen from the directory of the configuration file (an absolute path, if it is elsewhere). -/
inductive SeenFrom : Option DPath → DPath → List Str → Prop
  | below {d r} : SeenFrom (some d) (d ++ r) r
  | elsewhere {d p} : ¬ d <+: p → SeenFrom (some d) p ([] :: p)
  | noConfig {p} : SeenFrom none p ([] :: p)

/-- The name of the file starts with a dot. -/
def DotName (p : DPath) : Prop := ∃ d n, p = d ++ [('.' :: n)]

/-- `p` is left out while looking into a directory, and everything below it. -/
def LeftOut (git : DPath → Bool → GitMatch) (root : Option DPath) (patterns : List Str) (p : DPath) (isDir : Bool) : Prop :=
  (∃ r, SeenFrom root p r ∧ AnyHits patterns r isDir) ∨ git p isDir = .ignore ∨ (DotName p ∧ git p isDir ≠ .whitelist)

/-- There is a file at `p`. -/
def IsFile (tree : FsTree) (p : DPath) : Prop := tree.at p = some .file

/-- There is a directory at `p`. -/
def IsDirectory (tree : FsTree) (p : DPath) : Prop := ∃ es, tree.at p = some (.dir es)

/-- The file has one of the extensions, and a name in front of it. -/
def CheckedName (p : DPath) : Prop :=
  ∃ d stem ext, p = d ++ [stem ++ '.' :: ext] ∧ stem ≠ [] ∧
    ext ∈ [cs! "R", cs! "r", cs! "Rmd", cs! "rmd", cs! "Qmd", cs! "qmd"]

/-- The file `f` is given as an argument, or is an R file found by looking into an argument: nothing on the way from the argument to `f` is left
out. -/
def Reached (tree : FsTree) (git : DPath → Bool → GitMatch) (root : Option DPath) (patterns : List Str) (args : List DPath) (f : DPath) : Prop :=
  f ∈ args ∨
  (CheckedName f ∧ ∃ a ∈ args, a <+: f ∧ a ≠ f ∧
    (∀ e, a <+: e → e ≠ a → e <+: f → e ≠ f → ¬ LeftOut git root patterns e true) ∧ ¬ LeftOut git root patterns f false)

/-- What the configuration `s` in directory `d` says about the file `f` itself: no `exclude` pattern matches it, and one of the `include` patterns, if there are any. -/
def Wanted (d : DPath) (s : ExcludeSettings) (f : DPath) : Prop :=
  ∀ r, f = d ++ r →
    (∀ l, s.exclude = some l → ¬ AnyHits l r false) ∧
    (∀ l, s.include_ = some l → l ≠ [] → ∃ p ∈ l, IncludeHits p r)

/-- The item closest to `f`. -/
def NearestItem (items : List (DPath × ExcludeSettings)) (x : DPath × ExcludeSettings) (f : DPath) : Prop :=
  x ∈ items ∧ x.1 <+: f ∧ ∀ y ∈ items, y.1 <+: f → y.1.length ≤ x.1.length

/-- No two entries of a directory have the same name, and no name is empty or has a slash. -/
inductive OkTree : FsTree → Prop
  | file : OkTree .file
  | dir {es} : (es.map Prod.fst).Nodup → (∀ e ∈ es, e.1 ≠ [] ∧ '/' ∉ e.1) → (∀ e ∈ es, OkTree e.2) → OkTree (.dir es)

/-- Default patterns in force. -/
def DefaultsOn (first : Option (DPath × ExcludeSettings)) (noDefaultExclude : Bool) : Prop :=
  noDefaultExclude = false ∧ ∀ x, first = some x → x.2.defaultExclude ≠ some false

end Jarl.Spec
