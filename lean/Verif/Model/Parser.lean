/-!
# ssh/parser/parser.go with ssh/parser/Shell.g4: the command line parser

Texts are lists of characters (a Go string that comes from the terminal is valid UTF-8). The generated ANTLR lexer turns
every character into one token; the grammar is ambiguous in that a backslash may stand alone or form a pair with the
following space or backslash, and ANTLR resolves ambiguities in favour of the first alternative (Shell.g4:13), i.e. of the
pair. The generated parser is modelled in
`Verif.Model.Grammar` and proved to do the same (C98).
-/
namespace MS.Shell

/-- ssh/parser/parser.go:64-68 `ExitCharacter`: the last byte of the UTF-8 form of the matched text, taken as a
character. For `\ ` and `\\` this is the second character. -/
def lastByte (c : Char) : Char := if c.toNat < 0x80 then c else Char.ofNat (0x80 + c.toNat % 64)

/-- Shell.g4:3-13 with parser.go:60-91: the first command string and the following ones (the parameters, including empty
ones) -/
def split : List Char → List Char × List (List Char)
  | [] => ([], [])
  | c :: r =>
    if c = ' ' then
      let x := split r
      ([], x.1 :: x.2)
    else if c = '\\' then
      match r with
      | [] => (['\\'], [])
      | d :: r' =>
        if d = ' ' then
          let x := split r'
          (' ' :: x.1, x.2)
        else if d = '\\' then
          let x := split r'
          ('\\' :: x.1, x.2)
        else
          let x := split (d :: r')
          ('\\' :: x.1, x.2)
    else
      let x := split r
      (lastByte c :: x.1, x.2)
  termination_by l => l.length

/-- `unicode.IsSpace` for characters up to U+00FF (larger ones cannot come out of `lastByte`)
(ssh/parser/parser.go:94, 96) -/
def isSpace (c : Char) : Bool :=
  c.toNat == 9 || c.toNat == 10 || c.toNat == 11 || c.toNat == 12 || c.toNat == 13 || c.toNat == 32 || c.toNat == 0x85 ||
    c.toNat == 0xA0

/-- `strings.TrimSpace` (ssh/parser/parser.go:94, 96) -/
def trim (l : List Char) : List Char := ((l.dropWhile isSpace).reverse.dropWhile isSpace).reverse

/-- parser.go:19-22 -/
structure Parsed where
  command : List Char
  parameters : List (List Char)
  deriving DecidableEq, Repr

/-- parser.go:38-44 `ParseCommand`, with 82-98: empty parameters are skipped, then everything is trimmed -/
def parse (line : List Char) : Parsed :=
  let x := split line
  ⟨trim x.1, (x.2.filter (fun p => !p.isEmpty)).map trim⟩

/-- `strings.Replace(·, " ", "\\ ", -1)` (ssh/parser/parser.go:27, 31, 34) -/
def esc (l : List Char) : List Char := l.flatMap fun c => if c = ' ' then ['\\', ' '] else [c]

/-- parser.go:25-35 `Unparse` -/
def unparse (c : Parsed) : List Char :=
  if c.parameters.length = 0 then esc c.command ++ [' ']
  else esc c.command ++ [' '] ++ [' '].intercalate (c.parameters.map esc) ++ [' ']

end MS.Shell
