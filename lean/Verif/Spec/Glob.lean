/-!
# What a glob pattern means

The documented pattern language of `filepath.Match`:

    pattern: { term }
    term:  '*'                        any sequence of characters other than '/'
           '?'                        any one character other than '/'
           '[' [ '^' ] { range } ']'  a character in (not in) the class, which must not be empty
           c                          the character c (not '*', '?', '\', '[')
           '\' c                      the character c
    range: c (not '\', '-', ']'), '\' c, or lo '-' hi
-/
namespace MS.GlobSpec

abbrev Text := List Char

/-- A term of a pattern. -/
inductive Item where
  | star
  | any
  | lit (c : Char)
  | set (negated : Bool) (ranges : List (Char × Char))
deriving DecidableEq

/-- The terms that stand for one character. -/
def Item.accepts : Item → Char → Prop
  | .star, _ => False
  | .any, x => x ≠ '/'
  | .lit c, x => x = c
  | .set false rs, x => ∃ r ∈ rs, r.1 ≤ x ∧ x ≤ r.2
  | .set true rs, x => ¬ ∃ r ∈ rs, r.1 ≤ x ∧ x ≤ r.2

/-- The name has the form that the terms describe. -/
inductive Matches : List Item → Text → Prop
  | nil : Matches [] []
  | one {i : Item} {x : Char} {is : List Item} {s : Text} (h : i.accepts x) (t : Matches is s) : Matches (i :: is) (x :: s)
  | starEnd {is : List Item} {s : Text} (t : Matches is s) : Matches (.star :: is) s
  | starMore {x : Char} {is : List Item} {s : Text} (h : x ≠ '/') (t : Matches (.star :: is) s) : Matches (.star :: is) (x :: s)

/-- How a character is written in a class. -/
inductive Spelled : Text → Char → Prop
  | plain (c : Char) (h1 : c ≠ '\\') (h2 : c ≠ '-') (h3 : c ≠ ']') : Spelled [c] c
  | escaped (c : Char) : Spelled ['\\', c] c

/-- How the ranges of a class are written. -/
inductive Ranges : Text → List (Char × Char) → Prop
  | nil : Ranges [] []
  | one {u p : Text} {c : Char} {rs : List (Char × Char)} (h : Spelled u c) (t : Ranges p rs) :
      Ranges (u ++ p) ((c, c) :: rs)
  | range {u v p : Text} {lo hi : Char} {rs : List (Char × Char)} (h : Spelled u lo) (h' : Spelled v hi) (t : Ranges p rs) :
      Ranges (u ++ '-' :: (v ++ p)) ((lo, hi) :: rs)

/-- The pattern text denotes the terms. -/
inductive Denotes : Text → List Item → Prop
  | nil : Denotes [] []
  | star {p : Text} {is : List Item} (t : Denotes p is) : Denotes ('*' :: p) (.star :: is)
  | any {p : Text} {is : List Item} (t : Denotes p is) : Denotes ('?' :: p) (.any :: is)
  | lit {p : Text} {is : List Item} (c : Char) (h1 : c ≠ '*') (h2 : c ≠ '?') (h3 : c ≠ '\\') (h4 : c ≠ '[')
      (t : Denotes p is) : Denotes (c :: p) (.lit c :: is)
  | escaped {p : Text} {is : List Item} (c : Char) (t : Denotes p is) : Denotes ('\\' :: c :: p) (.lit c :: is)
  | set {u p : Text} {rs : List (Char × Char)} {is : List Item} (h : Ranges u rs) (hne : rs ≠ [])
      (hc : u.head? ≠ some '^') (t : Denotes p is) : Denotes ('[' :: (u ++ ']' :: p)) (.set false rs :: is)
  | negated {u p : Text} {rs : List (Char × Char)} {is : List Item} (h : Ranges u rs) (hne : rs ≠ [])
      (t : Denotes p is) : Denotes ('[' :: '^' :: (u ++ ']' :: p)) (.set true rs :: is)

/-- The name matches the pattern. -/
def Fits (pattern name : Text) : Prop := ∃ is, Denotes pattern is ∧ Matches is name

/-- The names match the parts of the pattern, one by one. -/
inductive FitsPath : List Text → List Text → Prop
  | nil : FitsPath [] []
  | cons {p n : Text} {ps ns : List Text} (h : Fits p n) (t : FitsPath ps ns) : FitsPath (p :: ps) (n :: ns)

/-! ## Matching by bytes

What the library does instead of the above where characters outside ASCII are concerned: a star may also end behind the first
byte, or a later one, of a character that UTF-8 writes in several bytes. Each byte that is left of that character then counts
as a character of its own, U+FFFD, which `?` and classes may stand for. -/

/-- A piece of a name: a character, or (`none`) one of the bytes behind the first one of a character. -/
abbrev Piece := Option Char

/-- The terms that stand for one piece. -/
def Item.acceptsPiece : Item → Piece → Prop
  | .lit c, x => x = some c
  | i, x => i.accepts (x.getD '\uFFFD')

/-- What is left if the first byte is skipped. -/
def afterByte : Piece → List Piece → List Piece
  | none, s => s
  | some c, s => List.replicate (c.utf8Size - 1) none ++ s

/-- The pieces have the form that the terms describe. -/
inductive MatchesBytes : List Item → List Piece → Prop
  | nil : MatchesBytes [] []
  | one {i : Item} {x : Piece} {is : List Item} {s : List Piece} (h : i.acceptsPiece x) (t : MatchesBytes is s) :
      MatchesBytes (i :: is) (x :: s)
  | starEnd {is : List Item} {s : List Piece} (t : MatchesBytes is s) : MatchesBytes (.star :: is) s
  | starMore {x : Piece} {is : List Item} {s : List Piece} (h : x ≠ some '/') (t : MatchesBytes (.star :: is) (afterByte x s)) :
      MatchesBytes (.star :: is) (x :: s)

/-- The name matches the pattern by bytes. -/
def FitsBytes (pattern name : Text) : Prop := ∃ is, Denotes pattern is ∧ MatchesBytes is (name.map some)

/-- The names match the parts of the pattern by bytes, one by one. -/
inductive FitsPathBytes : List Text → List Text → Prop
  | nil : FitsPathBytes [] []
  | cons {p n : Text} {ps ns : List Text} (h : FitsBytes p n) (t : FitsPathBytes ps ns) : FitsPathBytes (p :: ps) (n :: ns)

/-- Stars and characters that stand for themselves. -/
def Item.plain : Item → Prop
  | .star => True
  | .lit _ => True
  | _ => False

/-- No `?` and no class comes behind a star. -/
def Orderly : List Item → Prop
  | [] => True
  | .star :: is => ∀ i ∈ is, i.plain
  | _ :: is => Orderly is

/-- The pattern and the name cannot tell bytes from characters: the name is ASCII, or no `?` and no class comes behind a star. -/
def Tame (pattern name : Text) : Prop := (∀ c ∈ name, c.utf8Size = 1) ∨ ∀ is, Denotes pattern is → Orderly is

/-- The pattern is well-formed. -/
def WellFormed (pattern : Text) : Prop := ∃ is, Denotes pattern is

end MS.GlobSpec
