import Verif.Text
/-!
# Discovery: which jarl.toml is used for which file
(jarl-core discovery.rs:56-187, toml.rs:249-268, jarl commands/check.rs:38-114, jarl-lsp lint.rs:105-135)

Paths are absolute and normalised: lists of components, the root is `[]`.
-/
namespace Jarl

abbrev DPath := List Str

/-- `Path::ancestors`: the path itself, then its parents up to the root. -/
def ancestors (p : DPath) : List DPath := (List.range (p.length + 1)).reverse.map (fun n => p.take n)

/-- The file system as seen by the discovery of settings; `S` are settings.
* `toml d`: `find_jarl_toml_in_directory` (toml.rs:249-265) and `parse_settings` (discovery.rs:176-182): `none` if `d` contains no
  configuration file, `some none` if it contains an invalid one, `some (some s)` for settings `s`;
* `userDir`: `get_user_config_dir` (discovery.rs:41-45);
* `walk p`: the directories listed by the walker of discovery.rs:127-134 for a directory `p`, in order (`[]` if `p` is not a
  directory). -/
structure ConfigFs (S : Type) where
  toml : DPath → Option (Option S)
  userDir : Option DPath
  walk : DPath → List DPath

/-- discovery.rs:68-93: the loop over the ancestors of one path. `none`: an invalid configuration file. The result: the
visited directories, the configuration found. -/
def walkDirs {S} (fs : ConfigFs S) : List DPath → List DPath → Option (List DPath × Option (DPath × S))
  | [], seen => some (seen, none)
  | a :: as, seen =>
    if a ∈ seen then some (seen, none)
    else match fs.toml a with
      | some (some s) => some (a :: seen, some (a, s))
      | some none => none
      | none => if fs.userDir = some a then some (a :: seen, none) else walkDirs fs as (a :: seen)

/-- discovery.rs:95-108: the user configuration directory, if nothing was found. -/
def userFallback {S} (fs : ConfigFs S) (seen : List DPath) (acc : List (DPath × S)) :
    Option (List DPath × List (DPath × S)) :=
  match fs.userDir with
  | none => some (seen, acc)
  | some c =>
    if c ∈ seen then some (seen, acc)
    else match fs.toml c with
      | some (some s) => some (c :: seen, acc ++ [(c, s)])
      | some none => none
      | none => some (c :: seen, acc)

/-- discovery.rs:64-109: one path. -/
def discoverOne {S} (fs : ConfigFs S) (p : DPath) (seen : List DPath) (acc : List (DPath × S)) :
    Option (List DPath × List (DPath × S)) :=
  match walkDirs fs (ancestors p) seen with
  | none => none
  | some (seen', some x) => some (seen', acc ++ [x])
  | some (seen', none) => userFallback fs seen' acc

/-- discovery.rs:64-109: all paths. -/
def discoverUp {S} (fs : ConfigFs S) : List DPath → List DPath → List (DPath × S) → Option (List (DPath × S))
  | [], _, acc => some acc
  | p :: ps, seen, acc =>
    match discoverOne fs p seen acc with
    | none => none
    | some (seen', acc') => discoverUp fs ps seen' acc'

/-- discovery.rs:122-170 `discover_nested_settings`; `already_found` always holds the directories of the settings discovered so
far, which is what is used here. -/
def discoverNested {S} (fs : ConfigFs S) (root : DPath) : List DPath → List (DPath × S) → Option (List (DPath × S))
  | [], acc => some acc
  | d :: ds, acc =>
    if d = root then discoverNested fs root ds acc
    else if d ∈ acc.map Prod.fst then discoverNested fs root ds acc
    else match fs.toml d with
      | some (some s) => discoverNested fs root ds (acc ++ [(d, s)])
      | some none => none
      | none => discoverNested fs root ds acc

/-- discovery.rs:111-118: the nested configurations of all directories among the paths. -/
def discoverDown {S} (fs : ConfigFs S) : List DPath → List (DPath × S) → Option (List (DPath × S))
  | [], acc => some acc
  | p :: ps, acc =>
    match discoverNested fs p (fs.walk p) acc with
    | none => none
    | some acc' => discoverDown fs ps acc'

/-- discovery.rs:56-121 `discover_settings`, for normalised paths. -/
def discoverSettings {S} (fs : ConfigFs S) (paths : List DPath) : Option (List (DPath × S)) :=
  match discoverUp fs paths [] [] with
  | none => none
  | some acc => discoverDown fs paths acc

/-- air_workspace `PathResolver::resolve` (a dependency, modelled by its documentation): the item whose directory is the closest
one above the path. -/
def resolvePath {S} (items : List (DPath × S)) (f : DPath) : Option (DPath × S) :=
  (ancestors f).findSome? (fun a => items.find? (fun x => x.1 = a))

/-- commands/check.rs:98-104: files grouped by the directory of their settings (`HashMap::entry().or_default().push()`). -/
def addToGroup (key : Option DPath) (f : DPath) : List (Option DPath × List DPath) → List (Option DPath × List DPath)
  | [] => [(key, [f])]
  | (k, fs) :: gs => if k = key then (k, fs ++ [f]) :: gs else (k, fs) :: addToGroup key f gs

def groupFiles {S} (items : List (DPath × S)) (files : List DPath) : List (Option DPath × List DPath) :=
  files.foldl (fun gs f => addToGroup ((resolvePath items f).map Prod.fst) f gs) []

/-- commands/check.rs:107-111: the settings of a group. -/
def groupSettings {S} (items : List (DPath × S)) (key : Option DPath) : Option S :=
  match key with
  | none => none
  | some dir => (items.find? (fun x => x.1 = dir)).map Prod.snd

/-- commands/check.rs:106-114: which file is checked with which settings, for an order `groups` of the groups. -/
def checkedWith {S} (items : List (DPath × S)) (groups : List (Option DPath × List DPath)) : List (DPath × Option S) :=
  groups.flatMap (fun g => g.2.map (fun f => (f, groupSettings items g.1)))

/-- jarl-lsp lint.rs:105-135: the settings used for a file in the editor. -/
def editorSettings {S} (fs : ConfigFs S) (f : DPath) : Option (Option S) :=
  (discoverSettings fs [f]).map (fun items => items.head?.map Prod.snd)

end Jarl
