/-
Warnings of the scheduler: how they are collected, read by REST clients, and shown and dismissed on web pages.
jobqueue/server.go:949-967 (the callback the scheduler calls), jobqueue/serverREST.go:938-975, jobqueue/serverWebI.go:289-294, 384-393 and
430-465.

Simplifications: sending to the pages is done together with the change of the map (the code does it just after; what is sent is a pointer
into the map, so it is the latest content that is written); writing to a page works.
-/
namespace Verif.Server.Warnings

/-- server.go:255-260 -/
structure Issue where
  msg : Nat
  first : Nat
  last : Nat
  count : Nat
deriving DecidableEq, Repr

structure S where
  /-- `schedIssues` -/
  issues : List Issue := []
  /-- pages that are open -/
  pages : List Nat := []
  /-- pages that listen to `schedCaster` -/
  joined : List Nat := []
  /-- what was written to pages: page, message, count -/
  got : List (Nat × Nat × Nat) := []
  /-- (not in the code) what REST clients were answered -/
  replies : List (List Issue) := []
  /-- (not in the code) answers that could not be sent -/
  unsent : List (List Issue) := []
  /-- (not in the code) what was dismissed on pages -/
  dismissed : List Issue := []
deriving DecidableEq, Repr

inductive Ev where
  /-- the scheduler warns; the time -/
  | warn (m now : Nat)
  /-- GET of the warnings; does the answer reach the client? -/
  | get (ok : Bool)
  | dismiss (m : Nat)
  | dismissAll
  | openPage (p : Nat)
  /-- the goroutine of the page begins to listen -/
  | join (p : Nat)
  /-- the page asks for the current state of everything -/
  | current (p : Nat)
  | closePage (p : Nat)
deriving DecidableEq, Repr

/-- server.go:950-965 -/
def warned : List Issue → Nat → Nat → List Issue
  | [], m, now => [⟨m, now, now, 1⟩]
  | i :: is, m, now => if i.msg = m then { i with last := now, count := i.count + 1 } :: is else i :: warned is m now

def find (is : List Issue) (m : Nat) : Option Issue := is.find? (·.msg = m)

/-- server.go:966, serverWebI.go:291-293: an issue is sent to every page that listens -/
def cast (joined : List Nat) (i : Issue) : List (Nat × Nat × Nat) := joined.map fun p => (p, i.msg, i.count)

def step (s : S) : Ev → S
  | .warn m now =>
    let is := warned s.issues m now
    { s with issues := is, got := s.got ++ (is.filter (·.msg = m)).flatMap (cast s.joined) }
  | .get true => { s with issues := [], replies := s.replies ++ [s.issues] }
  | .get false => { s with issues := [], unsent := s.unsent ++ [s.issues] }
  | .dismiss m =>
    { s with issues := s.issues.filter (·.msg ≠ m), dismissed := s.dismissed ++ s.issues.filter (·.msg = m) }
  | .dismissAll => { s with issues := [], dismissed := s.dismissed ++ s.issues }
  | .openPage p => { s with pages := p :: s.pages }
  | .join p => if p ∈ s.pages ∧ p ∉ s.joined then { s with joined := p :: s.joined } else s
  | .current p => if p ∈ s.pages then { s with got := s.got ++ s.issues.flatMap (cast s.joined) } else s
  | .closePage p => { s with pages := s.pages.filter (· ≠ p), joined := s.joined.filter (· ≠ p) }

def run (s : S) (es : List Ev) : S := es.foldl step s

end Verif.Server.Warnings
