/-
Starting the server (C125): the token that clients authenticate with, and the
certificates and key of its TLS connections, on disk and in use.

Simplifications: time is in seconds; a certificate is reduced to the key it is
for, the key it was signed with, whether it is a CA's, when it expires and its
domain; a file of PEM blocks is the list of its blocks; the four files have
different paths; the writes of a file's content are one step after its creation;
verification of a server by a client considers chains of the server's
certificate and a CA certificate only, and domain names only, no IP addresses.
-/
namespace Verif.Server.Start

abbrev Bytes := List Nat

/-! ## the token -/

/-- encoding/base64 Encoding.Encode without padding: the 6-bit groups -/
def sixes : Bytes → List Nat
  | a :: b :: c :: t => a / 4 :: (a % 4 * 16 + b / 16) :: (b % 16 * 4 + c / 64) :: c % 64 :: sixes t
  | [a, b] => [a / 4, a % 4 * 16 + b / 16, b % 16 * 4]
  | [a] => [a / 4, a % 4 * 16]
  | [] => []

/-- encoding/base64 URLEncoding: the character for a 6-bit group -/
def urlChar (n : Nat) : Nat :=
  if n < 26 then 65 + n            -- A-Z
  else if n < 52 then 97 + (n - 26)   -- a-z
  else if n < 62 then 48 + (n - 52)   -- 0-9
  else if n = 62 then 45 else 95      -- - and _

/-- utils.go 57 -/
def tokenLength : Nat := 43

/-- utils.go 82-90: the token made of 32 random bytes -/
def newToken (rand : Bytes) : Bytes := (sixes rand).map urlChar

/-! ## files -/

structure Cert where
  pub : Nat
  signer : Nat
  isCA : Bool
  notAfter : Nat
  domain : List Char
deriving DecidableEq, Repr

inductive Block
  | cert (c : Cert)
  | key (k : Nat)
  | other
deriving DecidableEq, Repr

inductive Pem | ca | cert | key
deriving DecidableEq, Repr

/-- `priv`: only the owner can read it -/
structure File (α : Type) where
  data : α
  priv : Bool
deriving DecidableEq, Repr

structure FS where
  tok : Option (File Bytes)
  pem : Pem → Option (File (List Block))

/-- the writes of files; `make` and `tmake` open a file and truncate it -/
inductive W
  | make (p : Pem) (priv : Bool)
  | fill (p : Pem) (b : Block)
  | tmake
  | tfill (t : Bytes)
deriving DecidableEq, Repr

def FS.put (fs : FS) (p : Pem) (f : File (List Block)) : FS := { fs with pem := fun q => if q = p then some f else fs.pem q }

/-- the effect of os.OpenFile with O_CREATE and O_TRUNC (the mode is for new
files only), of pem.Encode and of os.WriteFile -/
def W.apply (fs : FS) : W → FS
  | .make p priv => fs.put p ⟨[], match fs.pem p with | some f => f.priv | none => priv⟩
  | .fill p b => match fs.pem p with
    | some f => fs.put p { f with data := [b] }
    | none => fs
  | .tmake => { fs with tok := some ⟨[], match fs.tok with | some f => f.priv | none => true⟩ }
  | .tfill t => match fs.tok with
    | some f => { fs with tok := some { f with data := t } }
    | none => fs

def applyAll (fs : FS) (ws : List W) : FS := ws.foldl W.apply fs

/-! ## the start -/

inductive Err
  | exists (p : Pem)     -- ErrCertExists
  | create               -- a file could not be made
  | db | notFound (p : Pem) | expired (p : Pem) | pair | other | token
deriving DecidableEq, Repr

/-- What a start depends on: the time, the random bytes, the new keys of the CA
and of the server, the domain, whether a token file is configured, and what
goes wrong: `genFail`: after so many writes of certificates, `db`: what initDB
says, `rest`: listening, finding the IP, the scheduler and the recovery of jobs
work, `tokOk`: the token file can be written. -/
structure Env where
  now : Nat
  rand : Bytes
  rootKey : Nat
  serverKey : Nat
  domain : List Char
  saveToken : Bool
  genFail : Option Nat
  db : Option (List Char)
  rest : Bool
  tokOk : Bool

structure Started where
  token : Bytes
  msg : List Char
  cert : List Cert     -- what clients are shown
  expiry : Nat         -- when the server will stop itself
deriving DecidableEq, Repr

def localhost : List Char := ['l', 'o', 'c', 'a', 'l', 'h', 'o', 's', 't']

/-- server.go 559-562 -/
def certDomain (d : List Char) : List Char := if d = [] then localhost else d

/-- internal/cert.go 41 validFor -/
def year : Nat := 365 * 24 * 3600

/-- internal/cert.go 160-163, 184-205, 208-223: the CA's certificate -/
def rootCert (e : Env) : Cert := ⟨e.rootKey, e.rootKey, true, e.now + year, certDomain e.domain⟩

/-- internal/cert.go 184-205, 273-290: the server's -/
def serverCert (e : Env) : Cert := ⟨e.serverKey, e.rootKey, false, e.now + year, certDomain e.domain⟩

/-- internal/cert.go 142-183, 239-271, 126-131: the order of the writes -/
def genWrites (e : Env) : List W :=
  [.make .ca false, .fill .ca (.cert (rootCert e)), .make .cert false, .fill .cert (.cert (serverCert e)),
   .make .key true, .fill .key (.key e.serverKey)]

/-- internal/cert.go 134-143 checkIfCertsExist -/
def present (fs : FS) : List Pem → Option Pem
  | [] => none
  | p :: ps => if (fs.pem p).isSome then some p else present fs ps

/-- internal/cert.go 104-133 GenerateCerts -/
def generate (e : Env) (fs : FS) : List W × Option Err :=
  match present fs [.ca, .cert, .key] with
  | some p => ([], some (.exists p))
  | none => match e.genFail with
    | some n => ((genWrites e).take n, some .create)
    | none => (genWrites e, none)

/-- internal/cert.go 292-302 CheckCerts -/
def checkCerts (fs : FS) : Bool := (fs.pem .cert).isSome && (fs.pem .key).isSome

/-- internal/cert.go 326-345: the certificates in a file -/
def certsOf : List Block → List Cert
  | [] => []
  | .cert c :: bs => c :: certsOf bs
  | _ :: bs => certsOf bs

def keysOf : List Block → List Nat
  | [] => []
  | .key k :: bs => k :: keysOf bs
  | _ :: bs => keysOf bs

def blocks (fs : FS) (p : Pem) : List Block := match fs.pem p with
  | some f => f.data
  | none => []

/-- internal/cert.go 304-324 CertExpiry -/
def certExpiry (fs : FS) (p : Pem) : Option Nat := (certsOf (blocks fs p)).head?.map Cert.notAfter

/-- crypto/tls LoadX509KeyPair: the key must be that of the first certificate -/
def pairOk (fs : FS) : Bool :=
  match (certsOf (blocks fs .cert)).head?, (keysOf (blocks fs .key)).head? with
  | some c, some k => c.pub == k
  | _, _ => false

/-- utils.go 78-91 generateToken -/
def tokenFor (e : Env) (fs : FS) : Bytes :=
  match if e.saveToken then fs.tok else none with
  | some f => if f.data.length = tokenLength then f.data else newToken e.rand
  | none => newToken e.rand

def certMsg : List Char := "created a new key and certificate for TLS".toList

/-- server.go 577-583 -/
def joinMsg (c m : List Char) : List Char :=
  if c = [] then m else if m = [] then c else c ++ ['.', ' '] ++ m

/-- server.go 584-1029: after the certificates; `ws` are the writes so far and
`fs` the files after them -/
def rest (e : Env) (fs : FS) (ws : List W) (token : Bytes) (cmsg : List Char) : List W × Except Err Started :=
  match e.db with
  | none => (ws, .error .db)
  | some m =>
    match certExpiry fs .ca with
    | none => (ws, .error (.notFound .ca))
    | some x =>
      if x < e.now then (ws, .error (.expired .ca))
      else match certExpiry fs .cert with
        | none => (ws, .error (.notFound .cert))
        | some y =>
          if y < e.now then (ws, .error (.expired .cert))
          else if ¬ pairOk fs then (ws, .error .pair)
          else if ¬ e.rest then (ws, .error .other)
          else if e.saveToken ∧ ¬ e.tokOk then (ws, .error .token)
          else (ws ++ (if e.saveToken then [.tmake, .tfill token] else []),
            .ok ⟨token, joinMsg cmsg m, certsOf (blocks fs .cert), min x y⟩)

/-- server.go 533-1029 Serve: the writes it makes, in order, and how it ends -/
def serve (e : Env) (fs : FS) : List W × Except Err Started :=
  let token := tokenFor e fs
  if checkCerts fs then rest e fs [] token []
  else match generate e fs with
    | (ws, some err) => (ws, .error err)
    | (ws, none) => rest e (applyAll fs ws) ws token certMsg

/-- an attempt to start: to its end, or the process dies after `k` writes -/
structure Try where
  env : Env
  dies : Option Nat

/-- the files afterwards -/
def Try.after (t : Try) (fs : FS) : FS :=
  match t.dies with
  | none => applyAll fs (serve t.env fs).1
  | some k => applyAll fs ((serve t.env fs).1.take k)

/-- the server, if it runs -/
def Try.result (t : Try) (fs : FS) : Option Started :=
  match t.dies with
  | none => match (serve t.env fs).2 with
    | .ok s => some s
    | .error _ => none
  | some _ => none

def tries (fs : FS) : List Try → FS
  | [] => fs
  | t :: ts => tries (t.after fs) ts

/-! ## clients -/

/-- crypto/x509 Certificate.Verify, as far as it is modelled -/
def verifies (roots : List Cert) (shown : List Cert) (domain : List Char) (now : Nat) : Bool :=
  match shown with
  | [] => false
  | leaf :: _ => leaf.domain == domain && decide (now ≤ leaf.notAfter) &&
    roots.any fun r => r.isCA && r.pub == leaf.signer && decide (now ≤ r.notAfter)

inductive Conn | refused | expired | denied | ok
deriving DecidableEq, Repr

/-- client.go 207-282 Connect, with the CA file `fs` has: to a server started
as `s`, which stops itself at its expiry (server.go 816, 829) -/
def connect (fs : FS) (s : Started) (domain : List Char) (token : Bytes) (now : Nat) : Conn :=
  match certExpiry fs .ca with
  | none => .refused
  | some x =>
    if x < now then .expired
    else if s.expiry < now then .refused
    else if ¬ verifies (certsOf (blocks fs .ca)) s.cert domain now then .refused
    else if token = s.token then .ok else .denied

end Verif.Server.Start
