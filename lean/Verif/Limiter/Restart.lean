import Verif.Limiter.Store
/-!
# Slots of limit groups through a restart of the manager (`/repo/jobqueue/server.go`, `/repo/jobqueue/serverCLI.go`), property C141

The limiter and the stored limits are those of `Limiter/Model.lean` and `Limiter/Store.lean`. Simplifications: a job is its key and
its limit groups; reserving a job of its scheduler group, and a runner's report that it started or ended, are one step each; the
record of a started job is in the database at once (that writes can be late is C28), and everything else that happens to jobs
does not touch slots (C33).
-/
namespace Verif.Limiter.Restart
open Verif.Limiter

/-- job.go:87-340 `Job`, the fields used here: `held` is `incrementedLimitGroups` (not stored in the database); `started` is that
its recorded state is running. -/
structure RJob where
  key : Nat
  groups : List String
  held : List String := []
  started : Bool := false
  deriving DecidableEq, Repr

/-- The manager: limits, and the jobs that runners have. -/
structure RS where
  st : LStore := {}
  jobs : List RJob := []

/-- What happens. `restart` has the time of the restart and the order in which the database lists the jobs. -/
inductive ROp where
  | set (n : String) (k : Int)
  | reserve (c : Clock) (key : Nat) (groups : List String)
  | started (key : Nat)
  | finish (key : Nat)
  | ask (n : String)
  | restart (c : Clock) (order : List RJob → List RJob)

/-- serverCLI.go:893-924 `reserveWithLimits`, for a job that is ready: the slots are taken first. The flag says if the job was handed
out. -/
def reserve (win : String → Option GroupData) (s : RS) (c : Clock) (key : Nat) (groups : List String) : RS × Bool :=
  if s.jobs.any (·.key = key) then (s, false)
  else if groups = [] then ({ s with jobs := { key := key, groups := groups } :: s.jobs }, true)
  else
    match increment c (retrieve win s.st.db) s.st.mem groups with
    | (mem, true) => ({ st := { s.st with mem := mem }, jobs := { key := key, groups := groups, held := groups } :: s.jobs }, true)
    | (mem, false) => ({ s with st := { s.st with mem := mem } }, false)

/-- job.go:812-849 `updateAfterExit` and `decrementLimitGroups`: the job ends and gives back what it was noted to hold. -/
def finish (s : RS) (key : Nat) : RS :=
  match s.jobs.find? (·.key = key) with
  | none => s
  | some j => { st := { s.st with mem := decrement s.st.mem j.held }, jobs := s.jobs.erase j }

/-- server.go:766-790, the loop over the jobs in the database, for those that were running: slots are taken for each, and noted if
they could be. -/
def recoverLoop (c : Clock) (cb : Callback) (mem : Groups) : List RJob → Groups × List RJob
  | [] => (mem, [])
  | j :: js =>
    if j.groups = [] then
      let r := recoverLoop c cb mem js
      (r.1, { j with held := [] } :: r.2)
    else
      let i := increment c cb mem j.groups
      let r := recoverLoop c cb i.1 js
      (r.1, { j with held := if i.2 then j.groups else [] } :: r.2)

/-- server.go:751-805: the manager died and is started again. Jobs that were handed out and had not started are ready again. -/
def restart (win : String → Option GroupData) (s : RS) (c : Clock) (order : List RJob → List RJob) : RS :=
  let r := recoverLoop c (retrieve win s.st.db) (fun _ => none) (order (s.jobs.filter (·.started)))
  { st := { s.st with mem := r.1 }, jobs := r.2 }

def rstep (win : String → Option GroupData) (s : RS) : ROp → RS
  | .set n k => { s with st := getSet s.st n (newCount k) }
  | .reserve c key groups => (reserve win s c key groups).1
  | .started key => { s with jobs := s.jobs.map fun j => if j.key = key then { j with started := true } else j }
  | .finish key => finish s key
  | .ask n => { s with st := { s.st with mem := (getLimit (retrieve win s.st.db) s.st.mem n).1 } }
  | .restart c order => restart win s c order

def rrun (win : String → Option GroupData) : RS → List ROp → RS
  | s, [] => s
  | s, o :: os => rrun win (rstep win s o) os

end Verif.Limiter.Restart
