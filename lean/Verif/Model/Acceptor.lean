import Verif.Model.Sender
import Verif.Model.Logging
/-!
# comm/conn_handler.go: accepting clients
-/
namespace MS.Acceptor
open MS.Sender (Conn)

/-- What `Accept` answers: a connection, or an error with its text. (comm/conn_handler.go:52) -/
inductive Answer where
  | conn (c : Conn)
  | error (text : List Char)
  deriving DecidableEq, Repr

/-- What the acceptor does. (comm/conn_handler.go:49-66) -/
inductive Ev where
  | serve (c : Conn)      -- :57-61, the goroutine that adds and reads the connection is started
  | greet (c : Conn)      -- :63, NewClientHandler(-1, ..) is started
  | log (w : Logging.Writer) (text : List Char)
  deriving DecidableEq, Repr

/-- comm/conn_handler.go:49-66 `serverConnectionAcceptor`, with what `Accept` answers and, at each turn, whether
NewClientHandler is set. -/
def acceptor (cut : Logging.Cutoffs) (date : List Char) : List (Answer × Bool) → List Ev
  | [] => []
  | (.error text, _) :: _ =>
    (Logging.log cut "comm".toList ("failed to accept connection: ".toList ++ text) date Logging.fatal).map fun l => .log l.1 l.2
  | (.conn c, set) :: rest => .serve c :: (if set then [.greet c] else []) ++ acceptor cut date rest

end MS.Acceptor
