/-!
# Specification of the command line syntax

A line is a sequence of pieces: separators (a space), plain characters, `\ ` for a space, `\\` for a backslash, and a lone
backslash for itself. A lone backslash must not be followed by a piece that starts with a space or a backslash: then it
would be one of the pairs.
-/
namespace MS.Spec.Shell

inductive Piece where
  | sep
  | plain (c : Char)
  | escSpace
  | escBackslash
  | lone
  deriving DecidableEq, Repr

def Piece.text : Piece → List Char
  | .sep => [' ']
  | .plain c => [c]
  | .escSpace => ['\\', ' ']
  | .escBackslash => ['\\', '\\']
  | .lone => ['\\']

/-- `ps` is a reading of `line`. -/
structure Reads (line : List Char) (ps : List Piece) : Prop where
  text : ps.flatMap Piece.text = line
  plain : ∀ c, Piece.plain c ∈ ps → c ≠ ' ' ∧ c ≠ '\\'
  lone : ∀ pre q post, ps = pre ++ .lone :: q :: post → ∃ c, q = .plain c

/-- The words of a reading: the first one, and those after each separator. -/
def words : List Piece → List Char × List (List Char)
  | [] => ([], [])
  | .sep :: ps => ([], (words ps).1 :: (words ps).2)
  | .plain c :: ps => (c :: (words ps).1, (words ps).2)
  | .escSpace :: ps => (' ' :: (words ps).1, (words ps).2)
  | .escBackslash :: ps => ('\\' :: (words ps).1, (words ps).2)
  | .lone :: ps => ('\\' :: (words ps).1, (words ps).2)

/-- Characters the parser does not mangle: those below U+00C0. -/
def Safe (l : List Char) : Prop := ∀ c ∈ l, c.toNat < 0xC0

/-- White space below U+00C0: tab, line feed, vertical tab, form feed, carriage return, space, next line, no-break space. -/
def White (c : Char) : Prop := c ∈ ['\t', '\n', '\x0b', '\x0c', '\r', ' ', '\u0085', '\u00a0']

/-- No white space at the ends. -/
def Trimmed (l : List Char) : Prop := (∀ c, l.head? = some c → ¬ White c) ∧ (∀ c, l.getLast? = some c → ¬ White c)

/-- `t` is `w` without the white space at its ends. -/
def TrimOf (w t : List Char) : Prop := (∃ a b, w = a ++ t ++ b ∧ ∀ c ∈ a ++ b, White c) ∧ Trimmed t

end MS.Spec.Shell
