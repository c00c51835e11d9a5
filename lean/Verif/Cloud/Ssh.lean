/-
The pool of ssh connections to a cloud server, and the sessions on them.
cloud/server.go:547-644 (SSHClient), 673-726 (SSHSession), 728-739 (CloseSSHSession), 862-898, 989-1057 (UploadFile, CreateFile,
DownloadFile: they use a session for sftp), 229-250 (WaitUntilReady forgets the connections).

The code has a counter for each connection. Every step below is one holding of the server's mutex, or the outcome of a network operation.
Simplifications: connections do not break; whether dialling works is given with the event.
-/
namespace Verif.Cloud.Ssh

/-- cloud/server.go:62 -/
def maxSessions : Int := 10

/-- how far the use of a session is -/
inductive Ph where
  /-- `NewSession` has not returned -/
  | opening
  | up
  /-- the caller of SSHSession stopped waiting; `NewSession` has not returned -/
  | timedOut
  /-- `NewSession` returned a session after that: nobody closes it -/
  | stray
deriving DecidableEq, Repr

structure Use where
  /-- which pool the connection is in -/
  gen : Nat
  idx : Nat
  /-- for sftp -/
  file : Bool
  ph : Ph
deriving DecidableEq, Repr

structure S where
  /-- `sshClientSessions` -/
  clients : List Int := []
  /-- (not in the code) how often the pool was emptied -/
  gen : Nat := 0
  uses : List Use := []
  /-- an index was out of range: the program has died -/
  dead : Bool := false
deriving DecidableEq, Repr

inductive Ev where
  /-- SSHClient; does dialling work if it is necessary? -/
  | get (file dial : Bool)
  /-- `NewSession` of the i-th use returns a session -/
  | up (i : Nat)
  /-- it returns an error -/
  | fail (i : Nat)
  /-- SSHSession gives up, or is cancelled -/
  | timeout (i : Nat)
  /-- CloseSSHSession, or the sftp client is closed -/
  | close (i : Nat)
  /-- WaitUntilReady forgets all connections -/
  | clear
deriving DecidableEq, Repr

/-- cloud/server.go:553-563: the last connection whose counter is below the maximum -/
def pick : List Int → Option Nat
  | [] => none
  | n :: ns =>
    match pick ns with
    | some i => some (i + 1)
    | none => if n < maxSessions then some 0 else none

/-- a counter is written: 719 and 738; out of range the program dies -/
def write (s : S) (i : Nat) (f : Int → Int) : S :=
  match s.clients[i]? with
  | some n => { s with clients := s.clients.set i (f n) }
  | none => { s with dead := true }

def step (s : S) (e : Ev) : Option S :=
  if s.dead then none else
  match e with
  | .get file dial =>
    match pick s.clients with
    | some i =>
      let s' := write s i (· + 1)
      some { s' with uses := s.uses ++ [⟨s.gen, i, file, .opening⟩] }
    | none =>
      if dial then some { s with clients := s.clients ++ [1], uses := s.uses ++ [⟨s.gen, s.clients.length, file, .opening⟩] }
      else some s
  | .up i =>
    match s.uses[i]? with
    | some ⟨g, x, file, .opening⟩ => some { s with uses := s.uses.set i ⟨g, x, file, .up⟩ }
    | some ⟨g, x, file, .timedOut⟩ => some { s with uses := s.uses.set i ⟨g, x, file, .stray⟩ }
    | _ => none
  | .fail i =>
    match s.uses[i]? with
    | some ⟨_, x, false, .opening⟩ => some (write { s with uses := s.uses.eraseIdx i } x fun _ => maxSessions)
    | some ⟨_, _, true, .opening⟩ => some { s with uses := s.uses.eraseIdx i }
    | some ⟨_, _, _, .timedOut⟩ => some { s with uses := s.uses.eraseIdx i }
    | _ => none
  | .timeout i =>
    match s.uses[i]? with
    | some ⟨g, x, false, .opening⟩ => some (write { s with uses := s.uses.set i ⟨g, x, false, .timedOut⟩ } x fun _ => maxSessions)
    | _ => none
  | .close i =>
    match s.uses[i]? with
    | some ⟨_, x, false, .up⟩ => some (write { s with uses := s.uses.eraseIdx i } x (· - 1))
    | some ⟨_, _, true, .up⟩ => some { s with uses := s.uses.eraseIdx i }
    | _ => none
  | .clear => some { s with clients := [], gen := s.gen + 1 }

def run (s : S) : List Ev → Option S
  | [] => some s
  | e :: es => (step s e).bind fun s => run s es

end Verif.Cloud.Ssh
