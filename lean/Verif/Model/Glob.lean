import Verif.Model.Files

/-!
# filepath.Match and filepath.Glob, as used by util/file_utils.go:71-88

`queue` selects songs with `filepath.Glob` (util/file_utils.go:72), which is part of Go's library. This is a model of
path/filepath/match.go of Go 1.11 to 1.15 on Unix. File names and patterns are taken to be valid UTF-8 and are lists of
characters instead of bytes; only behind a star the loop of `Match` goes through the name by bytes, and may stop in the middle of
a character. What is left of the name then begins with the remaining bytes of that character (`none` in a list of `Piece`s), each
of which `utf8.DecodeRuneInString` takes for U+FFFD, and which no character of the pattern equals, since those begin with a
first byte. An error (`ErrBadPattern`) is `none`.
-/
namespace MS.Glob

open MS.Files

/-- match.go `scanChunk`, the loop after the stars: the text up to the next `*` outside brackets, and the rest
(util/file_utils.go:72) -/
def scan : Bool → Path → Path × Path
  | _, [] => ([], [])
  | inrange, c :: p =>
    if c = '\\' then
      match p with
      | [] => (['\\'], [])
      | d :: q => let r := scan inrange q; ('\\' :: d :: r.1, r.2)
    else if c = '[' then let r := scan true p; (c :: r.1, r.2)
    else if c = ']' then let r := scan false p; (c :: r.1, r.2)
    else if c = '*' ∧ inrange = false then ([], c :: p)
    else let r := scan inrange p; (c :: r.1, r.2)

/-- match.go `scanChunk` (util/file_utils.go:72) -/
def scanChunk (pattern : Path) : Bool × Path × Path :=
  let p := pattern.dropWhile (· = '*')
  (pattern.head? = some '*', scan false p)

/-- match.go `getEsc`: a possibly escaped character for a character class; something has to follow it
(util/file_utils.go:72) -/
def getEsc : Path → Option (Char × Path)
  | [] => none
  | c :: p =>
    if c = '-' ∨ c = ']' then none
    else if c = '\\' then
      match p with
      | d :: e :: q => some (d, e :: q)
      | _ => none
    else if p = [] then none else some (c, p)

theorem getEsc_length {p q : Path} {c : Char} (h : getEsc p = some (c, q)) : q.length < p.length := by
  unfold getEsc at h
  split at h
  · cases h
  · split at h
    · cases h
    · split at h
      · split at h
        · cases h; simp
        · cases h
      · split at h
        · cases h
        · cases h; simp

/-- match.go `matchChunk`, the loop over the ranges of a character class: whether `r` is in one of them, and what follows
the class. (util/file_utils.go:72) -/
def ranges (r : Char) (first acc : Bool) (chunk : Path) : Option (Bool × Path) :=
  if first = false ∧ chunk.head? = some ']' then some (acc, chunk.drop 1)
  else
    match _h : getEsc chunk with
    | none => none
    | some (lo, c1) =>
      if c1.head? = some '-' then
        match _h' : getEsc (c1.drop 1) with
        | none => none
        | some (hi, c2) => ranges r false (acc || (decide (lo ≤ r) && decide (r ≤ hi))) c2
      else ranges r false (acc || (decide (lo ≤ r) && decide (r ≤ lo))) c1
termination_by chunk.length
decreasing_by
  · have h1 := getEsc_length _h
    have h2 := getEsc_length _h'
    simp at h2
    omega
  · exact getEsc_length _h

/-- What is left of a name: characters, or (`none`) bytes behind the first one of a character. (util/file_utils.go:72) -/
abbrev Piece := Option Char

/-- match.go `matchChunk`: what is left of the name, or `some none` if it does not match (util/file_utils.go:72) -/
def matchChunk : List Piece → Path → Option (Option (List Piece))
  | s, [] => some (some s)
  | [], _ :: _ => some none
  | x :: s, c :: chunk =>
    if c = '[' then
      if chunk = [] then none
      else
        let negated : Bool := chunk.head? = some '^'
        match ranges (x.getD '\uFFFD') true false (if negated then chunk.drop 1 else chunk) with
        | none => none
        | some (m, chunk') => if m = negated then some none else matchChunk s chunk'
    else if c = '?' then
      if x = some '/' then some none else matchChunk s chunk
    else if c = '\\' then
      match chunk with
      | [] => none
      | d :: chunk' => if some d = x then matchChunk s chunk' else some none
    else if some c = x then matchChunk s chunk else some none

/-- The rests `name[i+1:]` that the loop after a star tries, up to a slash: those within a character and that behind it
(util/file_utils.go:72) -/
def tails : List Piece → List (List Piece)
  | [] => []
  | none :: s => s :: tails s
  | some c :: s =>
    if c = '/' then []
    else (List.range c.utf8Size).reverse.map (fun j => List.replicate j none ++ s) ++ tails s

/-- match.go `Match`, the loop after a star (util/file_utils.go:72) -/
def skip (chunk : Path) (last : Bool) : List (List Piece) → Option (Option (List Piece))
  | [] => some none
  | name :: names =>
    match matchChunk name chunk with
    | none => none
    | some none => skip chunk last names
    | some (some t) => if last ∧ t ≠ [] then skip chunk last names else some (some t)

theorem scan_esc (b : Bool) (d : Char) (q : Path) :
    scan b ('\\' :: d :: q) = ('\\' :: d :: (scan b q).1, (scan b q).2) := by simp [scan]
theorem scan_esc_end (b : Bool) : scan b ['\\'] = (['\\'], []) := by simp [scan]
theorem scan_open (b : Bool) (p : Path) : scan b ('[' :: p) = ('[' :: (scan true p).1, (scan true p).2) := by
  conv => lhs; unfold scan
  simp
theorem scan_close (b : Bool) (p : Path) : scan b (']' :: p) = (']' :: (scan false p).1, (scan false p).2) := by
  conv => lhs; unfold scan
  simp
theorem scan_star (p : Path) : scan false ('*' :: p) = ([], '*' :: p) := by
  conv => lhs; unfold scan
  simp
theorem scan_star_in (p : Path) : scan true ('*' :: p) = ('*' :: (scan true p).1, (scan true p).2) := by
  conv => lhs; unfold scan
  simp
theorem scan_other (b : Bool) (c : Char) (p : Path) (h1 : c ≠ '\\') (h2 : c ≠ '[') (h3 : c ≠ ']') (h4 : c ≠ '*') :
    scan b (c :: p) = (c :: (scan b p).1, (scan b p).2) := by
  conv => lhs; unfold scan
  simp [h1, h2, h3, h4]

/-- The chunk and the rest make up the text. -/
theorem scan_append (n : Nat) : ∀ (b : Bool) (p : Path), p.length ≤ n → (scan b p).1 ++ (scan b p).2 = p := by
  induction n with
  | zero => intro b p h; have : p = [] := List.length_eq_zero_iff.1 (by omega); subst this; simp [scan]
  | succ n ih =>
    intro b p h
    cases p with
    | nil => simp [scan]
    | cons c p =>
      simp only [List.length_cons] at h
      by_cases h1 : c = '\\'
      · subst h1
        cases p with
        | nil => simp [scan_esc_end]
        | cons d q => simp only [List.length_cons] at h; simp [scan_esc, ih b q (by omega)]
      by_cases h2 : c = '['
      · subst h2; simp [scan_open, ih true p (by omega)]
      by_cases h3 : c = ']'
      · subst h3; simp [scan_close, ih false p (by omega)]
      by_cases h4 : c = '*'
      · subst h4
        cases b
        · simp [scan_star]
        · simp [scan_star_in, ih true p (by omega)]
      · simp [scan_other b c p h1 h2 h3 h4, ih b p (by omega)]

theorem scan_parts (b : Bool) (p : Path) : (scan b p).1 ++ (scan b p).2 = p := scan_append p.length b p (Nat.le_refl _)

theorem scanChunk_length (p : Path) (h : p ≠ []) : (scanChunk p).2.2.length < p.length := by
  cases p with
  | nil => exact absurd rfl h
  | cons c q =>
    unfold scanChunk
    by_cases hc : c = '*'
    · subst hc
      simp only [List.dropWhile_cons, decide_true, if_true]
      have h1 := congrArg List.length (scan_parts false (q.dropWhile (· = '*')))
      have h2 : (q.dropWhile (· = '*')).length ≤ q.length := (List.dropWhile_sublist _).length_le
      simp only [List.length_append, List.length_cons] at h1 ⊢
      omega
    · have : (decide (c = '*')) = false := by simp [hc]
      simp only [List.dropWhile_cons, this]
      have h1 := congrArg List.length (scan_parts false (c :: q))
      have h2 : (scan false (c :: q)).1 ≠ [] := by
        by_cases h1 : c = '\\'
        · subst h1
          cases q with
          | nil => simp [scan_esc_end]
          | cons d q => simp [scan_esc]
        by_cases h2 : c = '['
        · subst h2; simp [scan_open]
        by_cases h3 : c = ']'
        · subst h3; simp [scan_close]
        · simp [scan_other false c q h1 h2 h3 hc]
      have h3 := List.length_pos_iff.2 h2
      simp only [List.length_append, List.length_cons] at h1
      simp only [Bool.false_eq_true, if_false, List.length_cons]
      omega

/-- match.go `Match`, its loop, on what is left of the name (util/file_utils.go:72) -/
def matchPieces (pattern : Path) (name : List Piece) : Option Bool :=
  if hp : pattern = [] then some (name = [])
  else
    let star := (scanChunk pattern).1
    let chunk := (scanChunk pattern).2.1
    let rest := (scanChunk pattern).2.2
    if star = true ∧ chunk = [] then some (some '/' ∉ name)
    else
      match matchChunk name chunk with
      | none => none
      | some r =>
        let tryStar : Option (Option (List Piece)) := if star then skip chunk (rest = []) (tails name) else some none
        let next : Option (Option (List Piece)) := match r with
          | some t => if t = [] ∨ rest ≠ [] then some (some t) else tryStar
          | none => tryStar
        match next with
        | none => none
        | some none => some false
        | some (some t) => matchPieces rest t
termination_by pattern.length
decreasing_by exact scanChunk_length pattern hp

/-- match.go `Match` (util/file_utils.go:72) -/
def goMatch (pattern name : Path) : Option Bool := matchPieces pattern (name.map some)

/-- match.go `hasMeta` (util/file_utils.go:72) -/
def hasMeta (p : Path) : Bool := p.any fun c => c = '*' || c = '?' || c = '[' || c = '\\'

/-- What the file system tells: the names in a directory (none if it is not a directory), and whether something is there.
(util/file_utils.go:72, 124) -/
structure FS where
  dir : Path → Option (List Path)
  exists_ : Path → Bool

/-- util/file_utils.go:123-128 `IsFile` (symbolic links are not modelled) -/
def FS.isFile (fs : FS) (p : Path) : Bool := fs.exists_ p && (fs.dir p).isNone

/-- `sort.Strings` (util/file_utils.go:72); the order of characters is that of their UTF-8 bytes -/
def sortNames (ns : List Path) : List Path := ns.mergeSort fun a b => decide (a ≤ b)

/-- match.go `glob`: the loop over the names (util/file_utils.go:72) -/
def globNames (dir pattern : Path) : List Path → Option (List Path)
  | [] => some []
  | n :: ns =>
    match goMatch pattern n with
    | none => none
    | some b => (globNames dir pattern ns).map fun ms => if b then join dir n :: ms else ms

/-- match.go `glob` (util/file_utils.go:72) -/
def globDir (fs : FS) (dir pattern : Path) : Option (List Path) :=
  match fs.dir dir with
  | none => some []
  | some ns => globNames dir pattern (sortNames ns)

/-- match.go `Glob`: the loop over the matching directories (util/file_utils.go:72) -/
def globDirs (fs : FS) (pattern : Path) : List Path → Option (List Path)
  | [] => some []
  | d :: ds =>
    match globDir fs d pattern with
    | none => none
    | some ms => (globDirs fs pattern ds).map fun rest => ms ++ rest

/-- `filepath.Split`, the directory with its slash (util/file_utils.go:72) -/
def dirPart (p : Path) : Path := (p.reverse.dropWhile (· ≠ '/')).reverse

/-- `filepath.Split`, the name (util/file_utils.go:72) -/
def filePart (p : Path) : Path := (p.reverse.takeWhile (· ≠ '/')).reverse

/-- match.go `cleanGlobPath` (util/file_utils.go:72) -/
def cleanGlobPath (p : Path) : Path := if p = [] then ['.'] else if p = ['/'] then p else p.dropLast

/-- match.go `Glob` (util/file_utils.go:72). The test against endless recursion is what makes the recursion end; on Unix the
directory is always shorter if it has meta characters. -/
def glob (fs : FS) (pattern : Path) : Option (List Path) :=
  if hasMeta pattern = false then some (if fs.exists_ pattern then [pattern] else [])
  else
    let dir := cleanGlobPath (dirPart pattern)
    if hasMeta dir = false then globDir fs dir (filePart pattern)
    else if h : dir.length < pattern.length then
      match glob fs dir with
      | none => none
      | some ds => globDirs fs (filePart pattern) ds
    else none
termination_by pattern.length
decreasing_by exact h

/-- The songs `queue` selects: util/file_utils.go:71-88 and schedule/server_state_commands.go:48-52 -/
def select (fs : FS) (dir pattern : Path) : Option (List Path) :=
  (listGlobFiles (glob fs) fs.isFile dir pattern).map filterSongs

end MS.Glob
