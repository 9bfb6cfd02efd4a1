import Verif.Model.Parser
/-!
# ssh/parser/shell_parser (generated by ANTLR) with ssh/parser/parser.go, function by function

The two serialized transition networks are copied from /repo and decoded here; the generated recursive descent parser and
the listener are modelled statement by statement. The ANTLR runtime is not in /repo. What it does is stated as contracts:
`LexContract` (longest match, first rule) and `PredictContract` (the least alternative with which the rest of the input
can be read). A token stream ends with tokens of type EOF; `LA(1)` of an empty rest is EOF.

Simplifications: a failing `Match` (a syntax error, which the generated code reports and repairs) ends the model with
`none`; it is proved never to happen. `Sync` does nothing when the next token is expected, which the same proof shows. The
caches of the runtime (shared between all parsers) are taken to be invisible.
-/
namespace MS.Shell

/-- ssh/parser/shell_parser/shell_lexer.go:16-23 `serializedLexerAtn` -/
def serializedLexerAtn : List Nat := [
  3, 24715, 42794, 33075, 47597, 16764, 15335, 30598, 22884, 2, 5, 15, 8,
  1, 4, 2, 9, 2, 4, 3, 9, 3, 4, 4, 9, 4, 3, 2, 3, 2, 3, 3, 3, 3, 3, 4, 3,
  4, 2, 2, 5, 3, 3, 5, 4, 7, 5, 3, 2, 2, 2, 14, 2, 3, 3, 2, 2, 2, 2, 5, 3,
  2, 2, 2, 2, 7, 3, 2, 2, 2, 3, 9, 3, 2, 2, 2, 5, 11, 3, 2, 2, 2, 7, 13,
  3, 2, 2, 2, 9, 10, 7, 94, 2, 2, 10, 4, 3, 2, 2, 2, 11, 12, 7, 34, 2, 2,
  12, 6, 3, 2, 2, 2, 13, 14, 11, 2, 2, 2, 14, 8, 3, 2, 2, 2, 3, 2, 2]

/-- ssh/parser/shell_parser/shell_parser.go:17-35 `parserATN` -/
def parserATN : List Nat := [
  3, 24715, 42794, 33075, 47597, 16764, 15335, 30598, 22884, 3, 5, 43, 4,
  2, 9, 2, 4, 3, 9, 3, 4, 4, 9, 4, 4, 5, 9, 5, 4, 6, 9, 6, 4, 7, 9, 7, 3,
  2, 3, 2, 3, 2, 7, 2, 18, 10, 2, 12, 2, 14, 2, 21, 11, 2, 3, 3, 3, 3, 3,
  4, 3, 4, 3, 5, 3, 5, 3, 6, 7, 6, 30, 10, 6, 12, 6, 14, 6, 33, 11, 6, 3,
  7, 3, 7, 3, 7, 3, 7, 3, 7, 3, 7, 5, 7, 41, 10, 7, 3, 7, 2, 2, 8, 2, 4,
  6, 8, 10, 12, 2, 2, 2, 41, 2, 14, 3, 2, 2, 2, 4, 22, 3, 2, 2, 2, 6, 24,
  3, 2, 2, 2, 8, 26, 3, 2, 2, 2, 10, 31, 3, 2, 2, 2, 12, 40, 3, 2, 2, 2,
  14, 19, 5, 4, 3, 2, 15, 16, 7, 4, 2, 2, 16, 18, 5, 6, 4, 2, 17, 15, 3,
  2, 2, 2, 18, 21, 3, 2, 2, 2, 19, 17, 3, 2, 2, 2, 19, 20, 3, 2, 2, 2, 20,
  3, 3, 2, 2, 2, 21, 19, 3, 2, 2, 2, 22, 23, 5, 8, 5, 2, 23, 5, 3, 2, 2,
  2, 24, 25, 5, 8, 5, 2, 25, 7, 3, 2, 2, 2, 26, 27, 5, 10, 6, 2, 27, 9, 3,
  2, 2, 2, 28, 30, 5, 12, 7, 2, 29, 28, 3, 2, 2, 2, 30, 33, 3, 2, 2, 2, 31,
  29, 3, 2, 2, 2, 31, 32, 3, 2, 2, 2, 32, 11, 3, 2, 2, 2, 33, 31, 3, 2, 2,
  2, 34, 41, 7, 5, 2, 2, 35, 36, 7, 3, 2, 2, 36, 41, 7, 4, 2, 2, 37, 38,
  7, 3, 2, 2, 38, 41, 7, 3, 2, 2, 39, 41, 7, 3, 2, 2, 40, 34, 3, 2, 2, 2,
  40, 35, 3, 2, 2, 2, 40, 37, 3, 2, 2, 2, 40, 39, 3, 2, 2, 2, 41, 13, 3,
  2, 2, 2, 5, 19, 31, 40]

/-- A transition: source, target, type (1 epsilon, 3 call of a rule, 5 one symbol, 9 any symbol) and three arguments.
(ssh/parser/shell_parser/shell_parser.go:17-35, the ANTLR 4 serialization) -/
structure Edge where
  src : Nat
  trg : Nat
  typ : Nat
  arg1 : Nat
  arg2 : Nat
  arg3 : Nat
  deriving DecidableEq, Repr

/-- A transition network: type and rule of each state (7: end of a rule), start state of each rule (with the token type,
in a lexer), transitions in order, decision states. (ssh/parser/shell_parser/shell_parser.go:36-37) -/
structure Atn where
  states : List (Nat × Nat)
  rules : List (Nat × Nat)
  edges : List Edge
  decisions : List Nat
  deriving DecidableEq, Repr

/-- `n` states: type, rule, and one more number for the start of a block (3, 4, 5) and the end of a loop (12).
(ssh/parser/shell_parser/shell_parser.go:37, `ATNDeserializer.readStates`) -/
def readStates : Nat → List Nat → Option (List (Nat × Nat) × List Nat)
  | 0, l => some ([], l)
  | n + 1, 0 :: l => (readStates n l).map fun x => ((0, 0) :: x.1, x.2)
  | n + 1, t :: r :: l =>
    (readStates n (if t = 12 ∨ t = 3 ∨ t = 4 ∨ t = 5 then l.drop 1 else l)).map fun x => ((t, r) :: x.1, x.2)
  | _, _ => none

/-- The start states of the rules; in a lexer each is followed by its token type.
(ssh/parser/shell_parser/shell_parser.go:37, `ATNDeserializer.readRules`) -/
def readRules (lexer : Bool) : Nat → List Nat → Option (List (Nat × Nat) × List Nat)
  | 0, l => some ([], l)
  | n + 1, l =>
    match lexer, l with
    | true, s :: t :: l => (readRules lexer n l).map fun x => ((s, t) :: x.1, x.2)
    | false, s :: l => (readRules lexer n l).map fun x => ((s, 0) :: x.1, x.2)
    | _, _ => none

/-- The transitions. (ssh/parser/shell_parser/shell_parser.go:37, `ATNDeserializer.readEdges`) -/
def readEdges : Nat → List Nat → Option (List Edge × List Nat)
  | 0, l => some ([], l)
  | n + 1, a :: b :: c :: d :: e :: f :: l => (readEdges n l).map fun x => (⟨a, b, c, d, e, f⟩ :: x.1, x.2)
  | _, _ => none

/-- The UUID 59627784-3BE5-417A-B9EB-8131A7286089 of the serialization, last word first, each word stored with 2 added.
(ssh/parser/shell_parser/shell_parser.go:37, `ATNDeserializer.checkUUID`) -/
def uuid : List Nat := [0x6089, 0xA728, 0x8131, 0xB9EB, 0x417A, 0x3BE5, 0x7784, 0x5962]

/-- `DeserializeFromUInt16`: all numbers but the first are stored with 2 added (modulo 2^16); the version (3) and the UUID
are nine numbers and are checked; no non-greedy states, no precedence rules and no character sets occur in the two networks, others are rejected.
(ssh/parser/shell_parser/shell_parser.go:37, shell_lexer.go:26) -/
def deserialize (data : List Nat) : Option Atn :=
  if data.take 9 ≠ 3 :: uuid.map (· + 2) then none
  else match (data.drop 9).map (fun x => (x + 65534) % 65536) with
  | gt :: _ :: n :: l =>
    match readStates n l with
    | some (states, 0 :: 0 :: nr :: l) =>
      match readRules (gt == 0) nr l with
      | some (rules, nm :: l) =>
        match l.drop nm with
        | 0 :: 0 :: ne :: l =>
          match readEdges ne l with
          | some (edges, nd :: l) => some ⟨states, rules, edges, l.take nd⟩
          | _ => none
        | _ => none
      | _ => none
    | _ => none
  | _ => none

/-- ssh/parser/shell_parser/shell_lexer.go:26 `lexerAtn` -/
def lexerAtn : Atn := (deserialize serializedLexerAtn).getD ⟨[], [], [], []⟩

/-- ssh/parser/shell_parser/shell_parser.go:37 `deserializedATN` -/
def deserializedATN : Atn := (deserialize parserATN).getD ⟨[], [], [], []⟩

/-- State `q` ends a rule. (ssh/parser/shell_parser/shell_parser.go:37) -/
def Atn.isStop (A : Atn) (q : Nat) : Prop := (A.states[q]?.map (·.1)) = some 7

/-- How a network is read: `Path A q st w q'` if from state `q`, with the rules to return to on the stack `st`, exactly
the symbols `w` can be read, ending in `q'` with nothing left to return to.
(ssh/parser/shell_parser/shell_parser.go:64, the meaning of a transition network) -/
inductive Path (A : Atn) : Nat → List Nat → List Nat → Nat → Prop
  | done {q} : Path A q [] [] q
  | eps {q r st w q'} (e : Edge) : e ∈ A.edges → e.src = q → e.typ = 1 → e.trg = r → Path A r st w q' → Path A q st w q'
  | call {q r st w q'} (e : Edge) : e ∈ A.edges → e.src = q → e.typ = 3 → e.arg1 = r → Path A r (e.trg :: st) w q' →
      Path A q st w q'
  | ret {q r st w q'} : A.isStop q → Path A r st w q' → Path A q (r :: st) w q'
  | atom {q r st w q'} (x : Nat) (e : Edge) : e ∈ A.edges → e.src = q → e.typ = 5 → e.arg1 = x → e.trg = r →
      Path A r st w q' → Path A q st (x :: w) q'
  | any {q r st w q'} (x : Nat) (e : Edge) : e ∈ A.edges → e.src = q → e.typ = 9 → e.trg = r →
      Path A r st w q' → Path A q st (x :: w) q'

/-- Rule number `i` of the lexer reads exactly `w`. (ssh/parser/shell_parser/shell_lexer.go:68) -/
def LexAccepts (i : Nat) (w : List Char) : Prop :=
  ∃ s t q, lexerAtn.rules[i]? = some (s, t) ∧ lexerAtn.isStop q ∧ Path lexerAtn s [] (w.map Char.toNat) q

/-- The contract of the lexer of the runtime: of a text that is not empty it takes the longest beginning any rule reads,
and the first of the rules reading it. (ssh/parser/shell_parser/shell_lexer.go:63-79 `NewShellLexer`) -/
def LexContract (lexer : List Char → Nat × Nat) : Prop :=
  ∀ l : List Char, (∃ i k, k ≤ l.length ∧ 0 < k ∧ LexAccepts i (l.take k)) →
    (lexer l).2 ≤ l.length ∧ 0 < (lexer l).2 ∧ LexAccepts (lexer l).1 (l.take (lexer l).2) ∧
    (∀ i k, k ≤ l.length → LexAccepts i (l.take k) → k ≤ (lexer l).2) ∧
    (∀ i, LexAccepts i (l.take (lexer l).2) → (lexer l).1 ≤ i)

/-- A token: type and text. (ssh/parser/shell_parser/shell_lexer.go:82-86) -/
structure Token where
  typ : Nat
  text : List Char
  deriving DecidableEq, Repr

/-- ssh/parser/parser.go:10-16 `getParser`: the token stream of a line. A text the lexer takes nothing of is skipped by
one character (does not happen). -/
def tokens (lexer : List Char → Nat × Nat) : List Char → List Token
  | [] => []
  | c :: r =>
    if (lexer (c :: r)).2 = 0 then tokens lexer r
    else ⟨((lexerAtn.rules[(lexer (c :: r)).1]?).map (·.2)).getD 0, (c :: r).take (lexer (c :: r)).2⟩ ::
      tokens lexer ((c :: r).drop (lexer (c :: r)).2)
  termination_by l => l.length

/-- Where the rule called in state `inv` returns to. (ssh/parser/shell_parser/shell_parser.go:309, invoking states) -/
def follow (inv : Nat) : Nat :=
  match deserializedATN.edges.find? (fun e => e.src == inv && e.typ == 3) with
  | some e => e.trg
  | none => 0

/-- Alternative `i` (counted from 1) of decision `d` can begin a reading of all of `w` that ends at the end of the rule
`line`, when the rules under way were called in the states `inv`.
(ssh/parser/shell_parser/shell_parser.go:748 `AdaptivePredict`) -/
def Viable (d : Nat) (inv : List Nat) (w : List Nat) (i : Nat) : Prop :=
  ∃ q e, deserializedATN.decisions[d]? = some q ∧
    (deserializedATN.edges.filter (fun e => e.src == q))[i - 1]? = some e ∧ 0 < i ∧
    Path deserializedATN e.trg (inv.map follow) w 1

/-- The contract of `AdaptivePredict`: the least viable alternative, if there is one.
(ssh/parser/shell_parser/shell_parser.go:748) -/
def PredictContract (predict : Nat → List Nat → List Nat → Nat) : Prop :=
  ∀ d inv w, (∃ i, Viable d inv w i) → Viable d inv w (predict d inv w) ∧ ∀ i, Viable d inv w i → predict d inv w ≤ i

/-- The parser: tokens left, and how many have been consumed. (ssh/parser/shell_parser/shell_parser.go:57-59) -/
structure PS where
  rest : List Token
  idx : Nat
  deriving DecidableEq, Repr

/-- `LA(1)`; `none` is EOF. (ssh/parser/shell_parser/shell_parser.go:220) -/
def PS.la (p : PS) : Option Nat := p.rest.head?.map (·.typ)

/-- `Match(t)` (ssh/parser/shell_parser/shell_parser.go:225) -/
def PS.mtch (t : Nat) (p : PS) : Option (Token × PS) :=
  match p.rest with
  | x :: r => if x.typ = t then some (x, ⟨r, p.idx + 1⟩) else none
  | [] => none

/-- ssh/parser/shell_parser/shell_parser.go:663-666 `CharacterContext`: its terminals -/
structure CharacterCtx where
  children : List Token
  deriving DecidableEq, Repr

/-- ssh/parser/shell_parser/shell_parser.go:542-545 `RawStringContext` -/
structure RawStringCtx where
  children : List CharacterCtx
  deriving DecidableEq, Repr

/-- ssh/parser/shell_parser/shell_parser.go:445-448 `CommandStringContext`, with `GetSourceInterval().Start`: the index of
the first token, or -1 if nothing has been consumed when the rule ends -/
structure CommandStringCtx where
  start : Int
  child : RawStringCtx
  deriving DecidableEq, Repr

/-- ssh/parser/shell_parser/shell_parser.go:104-107 `LineContext`; the contexts of `command` and `parameter` (251-254, 348-351)
have a single child -/
structure LineCtx where
  command : CommandStringCtx
  params : List CommandStringCtx
  deriving DecidableEq, Repr

/-- ssh/parser/shell_parser/shell_parser.go:726-788 `Character` -/
def character (predict : Nat → List Nat → List Nat → Nat) (inv : List Nat) (p : PS) : Option (CharacterCtx × PS) :=
  match predict 2 inv (p.rest.map (·.typ)) with
  | 1 =>
    match p.mtch 3 with
    | some (a, p) => some (⟨[a]⟩, p)
    | none => none
  | 2 =>
    match p.mtch 1 with
    | some (a, p) =>
      match p.mtch 2 with
      | some (b, p) => some (⟨[a, b]⟩, p)
      | none => none
    | none => none
  | 3 =>
    match p.mtch 1 with
    | some (a, p) =>
      match p.mtch 1 with
      | some (b, p) => some (⟨[a, b]⟩, p)
      | none => none
    | none => none
  | 4 =>
    match p.mtch 1 with
    | some (a, p) => some (⟨[a]⟩, p)
    | none => none
  | _ => none

/-- ssh/parser/shell_parser/shell_parser.go:612-650 `RawString`. A call of `Character` that consumes nothing would loop
forever: `none` (does not happen). -/
def rawString (predict : Nat → List Nat → List Nat → Nat) (inv : List Nat) (p : PS) : Option (RawStringCtx × PS) :=
  if p.la = some 1 ∨ p.la = some 3 then
    match character predict (26 :: inv) p with
    | some (c, p') =>
      if p'.rest.length < p.rest.length then
        match rawString predict inv p' with
        | some (r, p'') => some (⟨c :: r.children⟩, p'')
        | none => none
      else none
    | none => none
  else some (⟨[]⟩, p)
  termination_by p.rest.length

/-- ssh/parser/shell_parser/shell_parser.go:502-529 `CommandString` -/
def commandString (predict : Nat → List Nat → List Nat → Nat) (inv : List Nat) (p : PS) : Option (CommandStringCtx × PS) :=
  match rawString predict (24 :: inv) p with
  | some (r, p') => some (⟨if p'.idx = 0 then -1 else (p.idx : Int), r⟩, p')
  | none => none

/-- ssh/parser/shell_parser/shell_parser.go:308-335 `Command` -/
def command (predict : Nat → List Nat → List Nat → Nat) (inv : List Nat) (p : PS) : Option (CommandStringCtx × PS) :=
  commandString predict (20 :: inv) p

/-- ssh/parser/shell_parser/shell_parser.go:405-432 `Parameter` -/
def parameter (predict : Nat → List Nat → List Nat → Nat) (inv : List Nat) (p : PS) : Option (CommandStringCtx × PS) :=
  commandString predict (22 :: inv) p

/-- ssh/parser/shell_parser/shell_parser.go:222-235, the loop of `Line` -/
def lineLoop (predict : Nat → List Nat → List Nat → Nat) (p : PS) : Option (List CommandStringCtx × PS) :=
  if p.la = some 2 then
    match p.mtch 2 with
    | some (_, p1) =>
      match parameter predict [14] p1 with
      | some (c, p') =>
        if p'.rest.length < p.rest.length then
          match lineLoop predict p' with
          | some (cs, p'') => some (c :: cs, p'')
          | none => none
        else none
      | none => none
    | none => none
  else some ([], p)
  termination_by p.rest.length

/-- ssh/parser/shell_parser/shell_parser.go:192-238 `Line` -/
def lineRule (predict : Nat → List Nat → List Nat → Nat) (p : PS) : Option (LineCtx × PS) :=
  match command predict [12] p with
  | some (c, p1) =>
    match lineLoop predict p1 with
    | some (cs, p2) => some (⟨c, cs⟩, p2)
    | none => none
  | none => none

/-- ssh/parser/parser.go:46-51 `shellListener` -/
structure Listener where
  commandStrings : List (Int × List Char)
  currentString : List Char
  cmd : Parsed
  deriving DecidableEq, Repr

/-- ssh/parser/parser.go:53-58 `newShellListener` -/
def newShellListener : Listener := ⟨[], [], ⟨[], []⟩⟩

/-- ssh/parser/parser.go:60-62 `EnterCommandString` -/
def enterCommandString (s : Listener) : Listener := { s with currentString := [] }

/-- ssh/parser/parser.go:64-68 `ExitCharacter`: the last byte of the text, as a character -/
def exitCharacter (c : CharacterCtx) (s : Listener) : Listener :=
  match (c.children.flatMap (·.text)).getLast? with
  | some x => { s with currentString := s.currentString ++ [lastByte x] }
  | none => s

/-- ssh/parser/parser.go:70-72 `ExitCommandString` -/
def exitCommandString (c : CommandStringCtx) (s : Listener) : Listener :=
  { s with commandStrings := (c.start, s.currentString) :: s.commandStrings }

/-- Reading the map; a missing key gives the empty string. (ssh/parser/parser.go:79, 87) -/
def getString (s : Listener) (k : Int) : List Char := (s.commandStrings.lookup k).getD []

/-- ssh/parser/parser.go:74-80 `ExitCommand` -/
def exitCommand (c : CommandStringCtx) (s : Listener) : Listener :=
  { s with cmd := { s.cmd with command := getString s c.start } }

/-- ssh/parser/parser.go:82-91 `ExitParameter` -/
def exitParameter (c : CommandStringCtx) (s : Listener) : Listener :=
  if getString s c.start ≠ [] then
    { s with cmd := { s.cmd with parameters := s.cmd.parameters ++ [getString s c.start] } }
  else s

/-- ssh/parser/parser.go:93-98 `ExitLine` -/
def exitLine (s : Listener) : Listener :=
  { s with cmd := ⟨trim s.cmd.command, s.cmd.parameters.map trim⟩ }

/-- Walking over a `commandString`: enter it, its characters in order, exit it. (ssh/parser/parser.go:42, 60-72) -/
def walkCommandString (c : CommandStringCtx) (s : Listener) : Listener :=
  exitCommandString c (c.child.children.foldl (fun s x => exitCharacter x s) (enterCommandString s))

/-- Walking over the tree: the command, the parameters in order, then the line is exited. (ssh/parser/parser.go:42) -/
def walk (t : LineCtx) (s : Listener) : Listener :=
  exitLine (t.params.foldl (fun s c => exitParameter c (walkCommandString c s))
    (exitCommand t.command (walkCommandString t.command s)))

/-- ssh/parser/parser.go:38-44 `ParseCommand` -/
def parseCommand (lexer : List Char → Nat × Nat) (predict : Nat → List Nat → List Nat → Nat) (line : List Char) :
    Option Parsed :=
  match lineRule predict ⟨tokens lexer line, 0⟩ with
  | some (t, _) => some (walk t newShellListener).cmd
  | none => none

end MS.Shell
