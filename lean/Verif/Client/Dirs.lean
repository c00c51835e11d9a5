/-!
# Working directories made and removed at the same time (`/repo/jobqueue/utils.go:445-547`, `/repo/jobqueue/behaviours.go:262-271`),
property C147

Jobs that do not care where they run each get a directory of their own below their `Cwd`: `wr_cwd`, three directories named by the first
characters of the job's key, and a new one in these. Any number of clients make such directories and, when their job is over, remove them
and the directories above that are empty. Every system call is a step.

Simplifications: names are numbers. What is in the directory of a job (utils.go:513-520) is left out, and so are its mounts; nothing but
clients of wr touches the directories, and a system call fails only if a directory is not there or is not empty. That `os.Mkdir` finds a
directory there and `os.MkdirAll` then looks at it is one step.
-/
namespace Verif.Client.Dirs

/-- a directory below `Cwd`, the innermost name first; `[]` is `Cwd` itself, which is always there -/
abbrev Path := List Nat

/-- Where a client is. -/
inductive At
  /-- in `os.MkdirAll`: to look if `q` is there; these below it are to be made, the outermost first -/
  | up (tries : Nat) (q : Path) (below : List Path)
  /-- in `os.MkdirAll`: to make these, the outermost first -/
  | down (tries : Nat) (todo : List Path)
  /-- to make the hold file (utils.go:486) -/
  | hold
  /-- to make the unique directory (utils.go:508) -/
  | temp
  /-- to remove the hold file (utils.go:459-468), with the unique directory if there is one -/
  | unhold (leaf : Option Path)
  /-- the command runs in its directory -/
  | running (leaf : Path)
  /-- to remove `q` if it is empty (utils.go:527-545) -/
  | rm (q : Path)
  | done
  /-- there is no working directory: the job is buried (client.go:636-643) -/
  | failed
  deriving DecidableEq, Repr

/-- A client: the directory the unique one is made in (utils.go:457), and where it is. -/
structure Client where
  dir : Path
  at_ : At
  deriving DecidableEq, Repr

/-- The file system and the clients. -/
structure St where
  dirs : List Path := []
  /-- the directories with a hold file -/
  holds : List Path := []
  clients : List Client := []
  deriving DecidableEq, Repr

/-- utils.go:445-450, 457: `wr_cwd` and three more -/
def depth : Nat := 4

/-- is the directory there? -/
def there (dirs : List Path) (q : Path) : Bool := q = [] || dirs.contains q

/-- is there nothing in it? -/
def empty (dirs holds : List Path) (q : Path) : Bool := (dirs.all fun r => r.tail ≠ q) && !holds.contains q

def ins (l : List Path) (q : Path) : List Path := if l.contains q then l else l ++ [q]

/-- utils.go:470-481: `os.MkdirAll` failed -/
def mkFailed (d : Path) (tries : Nat) : At := if tries + 1 ≤ 3 then .up (tries + 1) d [] else .unhold none

/-- The next system call of a client: the directories, the hold files and where the client is after. `n` is the name `os.MkdirTemp` finds,
which is not in use. -/
def call (dirs holds : List Path) (d : Path) (n : Nat) : At → Option (List Path × List Path × At)
  -- `os.MkdirAll`: if the directory is there that's all, else the one above is made first
  | .up k q below => some (dirs, holds, if there dirs q then .down k below else .up k q.tail (q :: below))
  | .down k (q :: rest) =>
    if there dirs q.tail then some (ins dirs q, holds, .down k rest) else some (dirs, holds, mkFailed d k)
  | .down _ [] => some (dirs, holds, .hold)
  -- utils.go:484-499: `tries` is set to 0, so that it is 1 after a failure
  | .hold => if there dirs d then some (dirs, ins holds d, .temp) else some (dirs, holds, .up 1 d [])
  | .temp =>
    if there dirs d then
      if dirs.contains (n :: d) then none else some (dirs ++ [n :: d], holds, .unhold (some (n :: d)))
    else some (dirs, holds, .unhold none)
  | .unhold leaf => some (dirs, holds.filter (· ≠ d), match leaf with | some l => .running l | none => .failed)
  -- behaviours.go:264; that rmEmptyDirs finds it gone (utils.go:527-528) is part of this
  | .running leaf => some (dirs.filter (· ≠ leaf), holds, .rm leaf.tail)
  | .rm q =>
    if q = [] then some (dirs, holds, .done)
    else if dirs.contains q && empty dirs holds q then some (dirs.filter (· ≠ q), holds, .rm q.tail)
    else some (dirs, holds, .done)
  | .done => none
  | .failed => none

inductive Ev
  /-- a client begins to make a working directory -/
  | arrive (d : Path)
  /-- client `t` goes on -/
  | go (t n : Nat)
  deriving DecidableEq, Repr

def step (s : St) : Ev → Option St
  | .arrive d => if d.length = depth then some { s with clients := s.clients ++ [⟨d, .up 0 d []⟩] } else none
  | .go t n =>
    match s.clients[t]? with
    | none => none
    | some c =>
      match call s.dirs s.holds c.dir n c.at_ with
      | none => none
      | some (ds, hs, a) => some { dirs := ds, holds := hs, clients := s.clients.set t { c with at_ := a } }

def run (s : St) : List Ev → Option St
  | [] => some s
  | e :: es => (step s e).bind fun s' => run s' es

/-- `k` steps of client `t` -/
def gos (t n k : Nat) : List Ev := List.replicate k (.go t n)

end Verif.Client.Dirs
