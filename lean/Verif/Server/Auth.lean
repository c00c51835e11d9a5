import Verif.Server.Life

/-!
# Model of the checks made on a request before it is acted on

`/repo/jobqueue/serverCLI.go` `handleRequest` (the gate at its top), `/repo/jobqueue/utils.go`
`tokenMatches`, `/repo/jobqueue/serverREST.go` `httpAuthorized`, and which of the HTTP end points
(`/repo/jobqueue/server.go:850-857`) call it.
-/

namespace Verif.Server.Auth

abbrev Bytes := List UInt8

/-- crypto/subtle `ConstantTimeCompare`, the loop: the differences or-ed together. -/
def diff : Bytes → Bytes → UInt8 → UInt8
  | a :: as, b :: bs, v => diff as bs (v ||| (a ^^^ b))
  | _, _, v => v

/-- utils.go:96-99 `tokenMatches`, with crypto/subtle `ConstantTimeCompare`: 1 iff the lengths are
equal and no byte differs. -/
def tokenMatches (input expected : Bytes) : Bool :=
  if input.length ≠ expected.length then false else diff input expected 0 == 0

/-- utils.go:57 `tokenLength`. -/
def tokenLength : Nat := 43

/-- What a client gets for a request. `info` stands for the server info given to a ping. -/
inductive Ans where
  | denied | stopped | info | done (r : Resp)
  deriving DecidableEq, Repr

/-- A client request, serverCLI.go:40-46, reduced to the token and the method. -/
structure Req where
  token : Bytes
  method : Option Op   -- `none` is "ping"

/-- The server: its token, the flags read at the gate, and the jobs. -/
structure Srv where
  token : Bytes
  up : Bool
  drain : Bool
  hasQ : Bool
  life : Life

/-- serverCLI.go:40-85 `handleRequest`, with the requests of `Verif.Server.Life` as methods. -/
def handle (s : Srv) (r : Req) : Srv × Ans :=
  if (r.token.length ≠ tokenLength || !tokenMatches r.token s.token) && r.method.isSome then
    (s, .denied)
  else if !s.hasQ || (!s.up && !s.drain) then (s, .stopped)
  else match r.method with
    | none => (s, .info)
    | some o => ({ s with life := (lstep s.life o).1 }, .done (lstep s.life o).2)

/-- The HTTP end points, server.go:850-857. `page` is the status page, `static` any other static
document. -/
inductive EndPoint where
  | page | static | ws | jobs | warnings | badServers | upload | info | version
  deriving DecidableEq, Repr

/-- An HTTP request: the `token` parameter ("" if missing) and the `Authorization` header ("" if
missing). A form that does not parse is `none`. -/
structure Http where
  form : Option Bytes
  auth : Bytes

/-- serverREST.go:53 `bearerSchema`: "Bearer ". -/
def bearer : Bytes := [66, 101, 97, 114, 101, 114, 32]

/-- serverREST.go:551-581 `httpAuthorized`. -/
def httpAuthorized (tok : Bytes) (r : Http) : Bool :=
  match r.form with
  | none => false
  | some token =>
    if token = [] then
      if r.auth = [] then false
      else if !bearer.isPrefixOf r.auth then false
      else tokenMatches (r.auth.drop bearer.length) tok
    else tokenMatches token tok

/-- Which handlers call `httpAuthorized` first: serverWebI.go:132 (for the status page) and 202,
serverREST.go:588, 945, 984, 1041, 1075; `restVersion` (serverREST.go:1100) does not. -/
def needsAuth : EndPoint → Bool
  | .static | .version => false
  | _ => true

/-- A handler: refused, or whatever the handler `act` does to the server's state. -/
def serve {σ α : Type} (tok : Bytes) (act : EndPoint → σ → σ × α) (e : EndPoint) (r : Http)
    (s : σ) : σ × Option α :=
  if needsAuth e && !httpAuthorized tok r then (s, none)
  else ((act e s).1, some (act e s).2)

end Verif.Server.Auth
