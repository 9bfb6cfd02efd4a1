/-!
# util/file_utils.go: listing songs

Paths are lists of characters with the Unix conventions of path/filepath. `clean` and `join` model `filepath.Clean` and
`filepath.Join` (`path.Join` is the same on Unix). The file system is a function from paths to what `filepath.Walk` finds
there; symbolic links, unreadable directories and changes while listing are not modelled.
-/
namespace MS.Files

/-- Go strings as lists of characters, util/file_utils.go:37 -/
abbrev Path := List Char

/-- The parts between the slashes. (used by `filepath.Clean`, util/file_utils.go:51, 72) -/
def split : Path → List Path
  | [] => [[]]
  | c :: p =>
    if c = '/' then [] :: split p
    else
      match split p with
      | [] => [[c]]
      | x :: xs => (c :: x) :: xs

/-- One element in `filepath.Clean`: the stack of elements so far (`filepath.Clean`, util/file_utils.go:51, 72) -/
def step (rooted : Bool) (st : List Path) (c : Path) : List Path :=
  if c = [] ∨ c = ['.'] then st
  else if c = ['.', '.'] then
    match st.getLast? with
    | some l => if l = ['.', '.'] then st ++ [c] else st.dropLast
    | none => if rooted then st else [c]
  else st ++ [c]

/-- `filepath.IsAbs`, util/file_utils.go:51, 72 -/
def rooted (p : Path) : Bool := p.head? = some '/'
/-- `filepath.Clean`, util/file_utils.go:51, 72 -/
def stack (p : Path) : List Path := (split p).foldl (step (rooted p)) []

/-- `strings.Join(·, "/")` (`filepath.Clean`, util/file_utils.go:51, 72) -/
def joinSlash (xs : List Path) : Path := ['/'].intercalate xs

/-- `filepath.Clean` (util/file_utils.go:51, 72) -/
def clean (p : Path) : Path :=
  if rooted p then '/' :: joinSlash (stack p)
  else if stack p = [] then ['.'] else joinSlash (stack p)

/-- `filepath.Join` of two elements (util/file_utils.go:51, 72, playback/playback.go:35) -/
def join (a b : Path) : Path :=
  if a ≠ [] then clean (a ++ '/' :: b) else if b ≠ [] then clean b else []

/-- util/file_utils.go:37-45 `removeDirPrefix` -/
def removeDirPrefix (path dir : Path) : Path :=
  let path := if dir.isPrefixOf path then path.drop dir.length else path
  if ['/'].isPrefixOf path || ['\\'].isPrefixOf path then path.drop 1 else path

/-- What is at a path: whether it is a directory, and for a directory everything below it, as the lists of names that lead
there, in the order of `filepath.Walk`. (util/file_utils.go:24) -/
structure Found where
  isDir : Bool
  below : List (List Path × Bool)

/-- The file system seen by util/file_utils.go:24, 72, 82 -/
abbrev FS := Path → Option Found

/-- `filepath.Walk`: the paths visited, and whether they are directories; the path of an entry of a directory is the `Join`
of the directory's path and the entry's name. (util/file_utils.go:24-33) -/
def visited (fs : FS) (root : Path) : List (Path × Bool) :=
  match fs root with
  | none => []
  | some f => (root, f.isDir) :: f.below.map fun e => (e.1.foldl join root, e.2)

/-- util/file_utils.go:22-35 `walker`, for the two kinds of filters -/
def walker (fs : FS) (root : Path) (transform : Path → Path) (dirs : Bool) : List Path :=
  ((visited fs root).map fun v => (transform v.1, v.2)).filter (fun v => v.1 ≠ [] && v.2 = dirs) |>.map Prod.fst

/-- util/file_utils.go:48-59 `ListAllFiles` -/
def listAllFiles (fs : FS) (songsDir subDir : Path) : List Path :=
  let dir := if subDir ≠ [] then join songsDir subDir else songsDir
  walker fs dir (fun p => removeDirPrefix p songsDir) false

/-- util/file_utils.go:62-68 `ListAllSubDirs` -/
def listAllSubDirs (fs : FS) (dir : Path) : List Path := walker fs dir (fun p => removeDirPrefix p dir) true

/-- util/file_utils.go:12-20 `FilterSongs` -/
def filterSongs (files : List Path) : List Path := files.filter fun f => ['.', 'm', 'p', '3'].isSuffixOf f

/-- util/file_utils.go:71-88 `ListGlobFiles`: `glob` gives the matches of a pattern (none if it is malformed), `isFile` is
123-128. -/
def listGlobFiles (glob : Path → Option (List Path)) (isFile : Path → Bool) (dir pattern : Path) : Option (List Path) :=
  (glob (join dir pattern)).map fun ms => (ms.filter isFile).map fun m => removeDirPrefix m dir

/-- playback/playback.go:35: the file that is opened for a song -/
def opened (audioDir name : Path) : Path := join audioDir name

end MS.Files
