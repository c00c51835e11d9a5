/-!
# The state counts that are pushed to status web pages

The changed callback (jobqueue/server.go 1622-1693), the counts the TTR callback sends (1785-1836), those a touch sends
(jobqueue/serverCLI.go 305-343), and the counts a page gets when it opens (jobqueue/serverWebI.go 512-535).

Jobs are identified by their position in a list; a job that was removed stays in it with `sub := removed`.  The queue
calls the callback in a goroutine: it is taken to run before the job changes again.  What the queue does is C54's subject;
here an event is any change it can report.
-/

namespace Verif.Server.Counts

/-- queue.SubQueue -/
inductive Sub
  | new | delay | ready | run | bury | dependent | removed
deriving DecidableEq, Repr

/-- JobState, as far as it is used for counts. -/
inductive State
  | new | delayed | ready | running | lost | buried | dependent | deleted | complete
deriving DecidableEq, Repr

/-- A job: `complete` tells if its State is JobStateComplete, `started` if its StartTime is set. -/
structure Job where
  group : Nat
  sub : Sub
  lost : Bool := false
  started : Bool := false
  complete : Bool := false
deriving DecidableEq, Repr

/-- jstateCount: `none` is "+all+". -/
structure Push where
  target : Option Nat
  frm : State
  to : State
  n : Nat
deriving DecidableEq, Repr

/-- job.go:75-87 subqueueToJobState (removed is dealt with by the callback) -/
def ofSub : Sub → State
  | .new => .new
  | .delay => .delayed
  | .ready => .ready
  | .run => .running
  | .bury => .buried
  | .dependent => .dependent
  | .removed => .complete

/-- The keys of a Go map that counts per group, in some order. -/
def distinct : List Nat → List Nat
  | [] => []
  | g :: gs => if gs.contains g then distinct gs else g :: distinct gs

/-- One push per group (server.go:1683-1685 and 1689-1691). -/
def perGroup (frm to : State) (gs : List Nat) : List Push :=
  (distinct gs).map fun g => ⟨some g, frm, to, gs.count g⟩

/-- server.go:1637-1654: the state the jobs moved to -/
def toState (toQ : Sub) (data : List Job) : State :=
  if toQ = .removed then (if data.any (·.complete) then .complete else .deleted) else ofSub toQ

/-- server.go:1656-1693: what the changed callback sends -/
def changed (fromQ toQ : Sub) (data : List Job) : List Push :=
  let to := toState toQ data
  let frm := ofSub fromQ
  let isLost := fun j : Job => decide (frm = .running) && j.lost
  let kept := (data.filter fun j => !isLost j).map (·.group)
  let gone := (data.filter isLost).map (·.group)
  [⟨none, frm, to, data.length - gone.length⟩] ++ perGroup frm to kept ++
    (if gone.length > 0 then [⟨none, .lost, to, gone.length⟩] ++ perGroup .lost to gone else [])

/-- What happens. -/
inductive Ev
  /-- jobs are added to a sub-queue: their groups, and if they were lost before a restart of the server brings them back;
  those that are added as running were started, and are stored as not lost (serverCLI.go:295-302) -/
  | add (toQ : Sub) (data : List (Nat × Bool))
  /-- the queue moves jobs that are in one sub-queue to another one, or removes them -/
  | move (fromQ toQ : Sub) (is : List Nat)
  /-- a client is given a job: the queue moves it and its StartTime is unset (serverCLI.go:244-256) -/
  | reserve (i : Nat)
  /-- jstart (serverCLI.go:274-304) -/
  | start (i : Nat)
  /-- jtouch (serverCLI.go:305-343) by a client that was not told to kill -/
  | touch (i : Nat)
  /-- a running job's time to release has come (server.go:1785-1836) -/
  | ttr (i : Nat)
  /-- the job's State becomes complete (serverCLI.go:344-390), just before it is removed -/
  | finish (i : Nat)
  /-- a modification gives the job another report group (serverCLI.go:470-601) -/
  | regroup (i : Nat) (g : Nat)
deriving Repr

/-- Move the jobs at the given positions, and tell the callback. -/
def shift (js : List Job) (fromQ toQ : Sub) (is : List Nat) : List Job × List Push :=
  (is.foldl (fun js i => js.modify i fun j => { j with sub := toQ }) js,
    changed fromQ toQ (is.filterMap (js[·]?)))

/-- One event: the jobs after it and what is sent.  Events that cannot happen change nothing. -/
def step (js : List Job) : Ev → List Job × List Push
  | .add toQ gs =>
    if toQ = .new ∨ toQ = .removed ∨ gs = [] then (js, [])
    else
      let data : List Job := gs.map fun g => ⟨g.1, toQ, g.2 && toQ ≠ .run, toQ = .run, false⟩
      (js ++ data, changed .new toQ data)
  | .move fromQ toQ is =>
    if fromQ ≠ .new ∧ fromQ ≠ .removed ∧ toQ ≠ .new ∧ toQ ≠ .run ∧ is.Nodup ∧ is ≠ [] ∧
        (toQ = .removed → is.length = 1) ∧ (∀ i ∈ is, (js[i]?.map (·.sub)) = some fromQ) then shift js fromQ toQ is
    else (js, [])
  | .reserve i =>
    if (js[i]?.map (·.sub)) = some .ready then
      let x := shift js .ready .run [i]
      (x.1.modify i fun j => { j with started := false }, x.2)
    else (js, [])
  | .start i =>
    if (js[i]?.map (·.sub)) = some .run then (js.modify i fun j => { j with started := true, lost := false }, [])
    else (js, [])
  | .touch i =>
    match js[i]? with
    | none => (js, [])
    | some j =>
      if j.sub = .run ∧ j.lost then
        (js.modify i fun j => { j with lost := false }, [⟨none, .lost, .running, 1⟩, ⟨some j.group, .lost, .running, 1⟩])
      else (js, [])
  | .ttr i =>
    match js[i]? with
    | none => (js, [])
    | some j =>
      if j.sub = .run then
        if j.started then
          (js.modify i fun j => { j with lost := true }, [⟨none, .running, .lost, 1⟩, ⟨some j.group, .running, .lost, 1⟩])
        else shift js .run .delay [i]
      else (js, [])
  | .finish i =>
    if (js[i]?.map (·.sub)) = some .run then (js.modify i fun j => { j with complete := true }, []) else (js, [])
  | .regroup i g => (js.modify i fun j => { j with group := g }, [])

/-- Any number of events: the jobs and everything that was sent. -/
def run (js : List Job) : List Ev → List Job × List Push
  | [] => (js, [])
  | e :: es =>
    let x := step js e
    let y := run x.1 es
    (y.1, x.2 ++ y.2)

/-- serverCLI.go:772-781 itemStateToJobState, merged as for display (serverWebI.go:516-523): the state a listing of the
queue gives; `complete` and `deleted` jobs are not in the queue. -/
def shown (j : Job) : State :=
  match j.sub with
  | .run => if j.lost then .lost else .running
  | .removed => if j.complete then .complete else .deleted
  | s => ofSub s

/-- serverWebI.go:512-535: what a page gets for a list of jobs when it opens -/
def snapshot (target : Option Nat) (js : List Job) : List Push :=
  [State.delayed, .ready, .running, .lost, .buried, .dependent, .complete].filterMap fun s =>
    let n := js.countP fun j => shown j = s
    if n > 0 then some ⟨target, .new, s, n⟩ else none

end Verif.Server.Counts
