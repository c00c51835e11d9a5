/-!
# Where a changed job waits (`/repo/jobqueue/server.go:1318-1472`, `/repo/jobqueue/serverCLI.go:493-586`), property C146

A job is a structure of the server (`Job`) and an item of its queue. Both have a scheduler group: `schedulerGroup` of the job, and the
item's `ReserveGroup`, by which runners get it. The ready added callback brings them up to date; the jmod request changes jobs and then
the keys of their items. Steps are delimited by the locks of a job and of the queue.

Simplifications: there is a runner command (`rc` is not empty). Keys, groups and priorities are numbers. A job that is looked up by its
key is every job with this key in the queue (there is one: `queue.items` is a map). Which jobs the request looks at is left open (493-509),
except that they do not run; that modification fails, limits of groups, the database and the dependencies of jobs are left out.
-/
namespace Verif.Server.Regroup

/-- queue/item.go: the state of an item, as far as it matters here -/
inductive Place
  | ready
  | run
  | other
  deriving DecidableEq, Repr

/-- job.go:87-340 `Job` and queue/item.go `Item` -/
structure Job where
  /-- `Job.Key()` -/
  key : Nat
  /-- `generateSchedulerGroup(reqForScheduler(job.Requirements))` (job.go:878-884, utils.go:623-641): the group its requirements and
  limits say now -/
  want : Nat
  /-- `schedulerGroup` -/
  sched : Nat
  /-- `Priority` -/
  prio : Nat
  /-- the key of its item; `none`: it is not in the queue -/
  qkey : Option Nat
  /-- `ReserveGroup` of the item -/
  rgroup : Nat
  /-- `priority` of the item -/
  qprio : Nat
  /-- `delay` of the item -/
  delay : Nat
  place : Place
  deriving DecidableEq, Repr

/-- Where the callback is. -/
inductive Rac
  | idle
  /-- in the loop over the jobs that were ready when it began (server.go:1325); these are still to come -/
  | run (todo : List Nat)
  /-- has set the group of job `i` to `g`, to call `SetReserveGroup` (server.go:1463-1464) -/
  | put (i g : Nat) (todo : List Nat)
  deriving DecidableEq, Repr

structure St where
  /-- all jobs there ever were, oldest first -/
  jobs : List Job := []
  rac : Rac := .idle
  /-- old and new keys of jobs that a jmod request has changed, to call `ChangeKey` (serverCLI.go:546-553) -/
  pend : List (Nat × Nat) := []
  deriving DecidableEq, Repr

/-- change the `i`th job -/
def setAt (l : List Job) (i : Nat) (f : Job → Job) : List Job := l.modify i f

/-- change the item with a key, if there is one -/
def setKey (l : List Job) (k : Nat) (f : Job → Job) : List Job := l.map fun j => if j.qkey = some k then f j else j

/-- is there an item with this key? -/
def has (l : List Job) (k : Nat) : Bool := l.any fun j => j.qkey = some k

/-- queue.go:275-281: the jobs the callback is called with -/
def readyIdx (l : List Job) : List Nat :=
  (List.range l.length).filter fun i => l[i]?.any fun j => j.qkey.isSome && j.place = .ready

/-- queue.go:811-848 `ChangeKey` -/
def changeKey (l : List Job) (old new : Nat) : List Job :=
  if has l new then l else setKey l old fun j => { j with qkey := some new }

/-- queue.go:882-910 `SetReserveGroup` -/
def setReserveGroup (l : List Job) (k g : Nat) : List Job := setKey l k fun j => { j with rgroup := g }

/-- queue.go:758-790 `Update`, with a delay of 0 and the time to release that all items have: a differing delay is all that is stored -/
def update (l : List Job) (k g prio : Nat) : List Job :=
  setKey l k fun j => if j.delay ≠ 0 then { j with delay := 0 } else { j with qprio := prio, rgroup := g }

/-- server.go:1872-1924: a job that is added -/
def newJob (k want g prio : Nat) (place : Place) : Job where
  key := k
  want := want
  sched := g
  prio := prio
  qkey := some k
  rgroup := g
  qprio := prio
  delay := 0
  place := place

inductive Ev
  /-- a job is added (server.go:1872-1924); `g` is the group it gets first, from its requirements as they are (1878) -/
  | add (k want g prio : Nat) (place : Place)
  /-- job.go:1258-1419 `Modify`, one job: it has the key `k`, wants the group `want` and has the priority `prio` from now on -/
  | modify (i k want prio : Nat)
  /-- serverCLI.go:546-553, the next changed job -/
  | rename
  /-- serverCLI.go:575-583, one job: if dependencies or priorities are changed -/
  | update (i : Nat)
  /-- the callback begins, with these jobs in this order -/
  | start (todo : List Nat)
  /-- server.go:1335-1456: the requirements of the job it looks at are changed to those learnt -/
  | learn (want : Nat)
  /-- server.go:1458-1463 -/
  | set
  /-- server.go:1464 -/
  | put
  /-- the loop is over -/
  | done
  /-- a runner of group `g` gets the job (serverCLI.go:228-262), whose delay is set -/
  | reserve (i g delay : Nat)
  /-- it is released, buried, kicked, … -/
  | move (i : Nat) (place : Place)
  /-- it is complete or deleted -/
  | leave (i : Nat)
  deriving DecidableEq, Repr

def step (s : St) : Ev → Option St
  | .add k w g p pl =>
    if has s.jobs k then none
    else some { s with jobs := s.jobs ++ [newJob k w g p pl] }
  | .modify i k w p =>
    match s.jobs[i]? with
    | none => none
    | some j =>
      -- job.go:1291-1307: not the key of another job in the queue or of one changed before
      if j.qkey = some j.key ∧ j.place ≠ .run ∧ (k = j.key ∨ has s.jobs k = false) ∧ (s.pend.all fun e => e.1 ≠ j.key && e.2 ≠ k) = true then
        some { s with jobs := setAt s.jobs i fun j => { j with key := k, want := w, prio := p }, pend := s.pend ++ [(j.key, k)] }
      else none
  | .rename =>
    match s.pend with
    | [] => none
    | (o, k) :: rest => some { s with jobs := if o = k then s.jobs else changeKey s.jobs o k, pend := rest }
  | .update i =>
    match s.jobs[i]? with
    | none => none
    | some j => some { s with jobs := Regroup.update s.jobs j.key j.sched j.prio }
  | .start todo => if s.rac = .idle ∧ todo.isPerm (readyIdx s.jobs) then some { s with rac := .run todo } else none
  | .learn w =>
    match s.rac with
    | .run (i :: _) => some { s with jobs := setAt s.jobs i fun j => { j with want := w } }
    | _ => none
  | .set =>
    match s.rac with
    | .run (i :: t) =>
      match s.jobs[i]? with
      | none => none
      | some j =>
        if j.sched ≠ j.want then
          some { s with jobs := setAt s.jobs i fun j => { j with sched := j.want }, rac := .put i j.want t }
        else some { s with rac := .run t }
    | _ => none
  | .put =>
    match s.rac with
    | .put i g t =>
      match s.jobs[i]? with
      | none => none
      | some j => some { s with jobs := setReserveGroup s.jobs j.key g, rac := .run t }
    | _ => none
  | .done =>
    match s.rac with
    | .run [] => some { s with rac := .idle }
    | _ => none
  | .reserve i g d =>
    match s.jobs[i]? with
    | none => none
    | some j =>
      if j.qkey.isSome ∧ j.place = .ready ∧ j.rgroup = g then
        some { s with jobs := setAt s.jobs i fun j => { j with place := .run, delay := d } }
      else none
  | .move i p =>
    match s.jobs[i]? with
    | none => none
    | some j => if p ≠ .run ∧ j.qkey.isSome then some { s with jobs := setAt s.jobs i fun j => { j with place := p } } else none
  | .leave i =>
    match s.jobs[i]? with
    | none => none
    | some j => if j.qkey.isSome then some { s with jobs := setAt s.jobs i fun j => { j with qkey := none } } else none

def run (s : St) : List Ev → Option St
  | [] => some s
  | e :: es => (step s e).bind fun s' => run s' es

/-! ## Specification -/

/-- Nothing comes between the changes of a request: it changes jobs and keys while the callback does not run, and meanwhile nothing else
is done; jobs it puts in their new place in the queue are still there; and while the callback runs no job is added that has the key of an
earlier one. -/
def Quiet (s : St) : Ev → Prop
  | .modify .. => s.rac = .idle
  | .rename => s.rac = .idle
  | .add k .. => s.pend = [] ∧ (s.rac = .idle ∨ ∀ j ∈ s.jobs, j.key ≠ k)
  | .update i => s.pend = [] ∧ ∀ j, s.jobs[i]? = some j → j.qkey.isSome
  | _ => s.pend = []

def QuietRun (s : St) : List Ev → Prop
  | [] => True
  | e :: es => Quiet s e ∧ ∀ s', step s e = some s' → QuietRun s' es

end Verif.Server.Regroup
