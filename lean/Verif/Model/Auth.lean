/-!
# ssh/options.go, ssh/ssh.go: who may log in

Strings are lists of bytes. Keys are those of the ssh library: `parse` is `ssh.ParsePublicKey`, `marshal` is
`PublicKey.Marshal`; both are arbitrary functions here. The protocol itself (the client is known to own a key it offers,
the library asks the right callback and grants a login when the callback says so) is assumed; the number of attempts the
library allows is not bounded here.
-/
namespace MS.Auth

/-- ssh/ssh.go:18: Go `[]byte` -/
abbrev Bytes := List UInt8

/-- ssh/ssh.go:16-19 `UserAuth` -/
structure UserAuth where
  password : Bytes
  pubKey : Bytes
  deriving DecidableEq, Repr

/-- ssh/ssh.go:30: the Go map from names to data -/
abbrev Users := Bytes → Option UserAuth

/-- ssh/ssh.go:30-34: the members of the JSON object are stored one after the other; a later member replaces an earlier
one of the same name, and `null` leaves the zero value. -/
def readUsers (members : List (Bytes × Option UserAuth)) : Users :=
  members.foldl (fun t m u => if u = m.1 then some (m.2.getD ⟨[], []⟩) else t u) fun _ => none

/-- ssh/options.go:27-36 `createPasswordAuthOption` -/
def passwordOk (users : Users) (user password : Bytes) : Bool :=
  match users user with
  | some auth => if auth.password ≠ [] ∧ auth.password = password then true else false
  | none => false

/-- ssh/options.go:38-56 `createPublicKeyAuthOption`; `ssh.KeysEqual` compares the marshalled keys -/
def keyOk {K : Type} (parse : Bytes → Option K) (marshal : K → Bytes) (users : Users) (user : Bytes) (key : K) : Bool :=
  match users user with
  | none => false
  | some auth =>
    if auth.pubKey.length = 0 then false
    else
      match parse auth.pubKey with
      | none => false
      | some authKey => if marshal key = marshal authKey then true else false

/-- What a client may offer; the user is the one the library reports for the attempt. (ssh/options.go:28, 39) -/
inductive Attempt (K : Type) where
  | password (user password : Bytes)
  | key (user : Bytes) (key : K)
  /-- the methods "none" and "keyboard-interactive": ssh/options.go:8-14 installs the two callbacks above only, so that the
  library refuses these -/
  | other (user : Bytes)

/-- The callback's answer (ssh/options.go:9) -/
def accepts {K : Type} (parse : Bytes → Option K) (marshal : K → Bytes) (users : Users) : Attempt K → Bool
  | .password u p => passwordOk users u p
  | .key u k => keyOk parse marshal users u k
  | .other _ => false

/-- A connection: attempts are made until one is accepted. The result is the attempt that was.
(ssh/ssh.go:39-46 with gliderlabs/ssh, whose behaviour is assumed) -/
def login {K : Type} (parse : Bytes → Option K) (marshal : K → Bytes) (users : Users) : List (Attempt K) → Option (Attempt K)
  | [] => none
  | a :: as => if accepts parse marshal users a then some a else login parse marshal users as

end MS.Auth
