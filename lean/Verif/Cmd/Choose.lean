import Verif.Server.Listing
/-
`wr remove`, `wr kill` and `wr retry`: cmd/remove.go:67-106, cmd/kill.go:62-127, cmd/retry.go:57-90, with choosing the jobs
(cmd/status.go:494-575) and what the server does: listing (jobqueue/server.go:2340-2382, 2420-2537, 2583-2709, jobqueue/serverCLI.go:624-670,
797-862), and the requests jkick, jdel and jkill (serverCLI.go:425-469, 602-623, server.go:2077-2145, 2177-2264, 2314-2338); and what a kill
leads to (serverCLI.go:274-343).

Each command asks the server twice: for the jobs, and then to do something to those it got. Between these anything may happen, so the
state of the server at each is given. Simplifications: a job's key is a number; which group a job is in and the group's list of jobs agree;
a job that is found dead is not removed by a behaviour; a job waits for the keys in `deps` that are in the queue.
-/
namespace Verif.Cmd.Choose
open Verif.Server.Listing (JobState normalizeJobState matchesStateFilter)

abbrev Str := List Char

/-- the sub-queues -/
inductive Sub where
  | delay
  | ready
  | run
  | bury
  | dependent
deriving DecidableEq

/-- a job in the queue; `left` is `UntilBuried`; no time is the zero time -/
structure Item where
  key : Nat
  group : Str := []
  sub : Sub := .ready
  lost : Bool := false
  start : Option Nat := none
  end_ : Option Nat := none
  killCalled : Bool := false
  left : Nat := 1
  retries : Nat := 0
  deps : List Nat := []
deriving DecidableEq

/-- the server: the queue, and the keys of complete jobs -/
structure W where
  queue : List Item
  done : List Nat := []
deriving DecidableEq

/-- a job as the client gets it -/
structure Found where
  key : Nat
  state : JobState
  start : Option Nat := none
  end_ : Option Nat := none
deriving DecidableEq

/-- serverCLI.go:772-780 `itemStateToJobState` and 851-853 -/
def stateOf (i : Item) : JobState :=
  match i.sub with
  | .delay => .delayed
  | .ready => .ready
  | .bury => .buried
  | .dependent => .dependent
  | .run => if i.lost then .lost else if i.start.isSome then .running else .reserved

/-- serverCLI.go:797-862 `itemToJob` -/
def view (i : Item) : Found := { key := i.key, state := stateOf i, start := i.start, end_ := i.end_ }

/-- server.go:2615-2674 `limitJobs` with a state and no limit (the jobs it gets from itemToJob never have Lost set) -/
def withState (st : JobState) (fs : List Found) : List Found :=
  fs.filter fun f => matchesStateFilter (normalizeJobState f.state false) (some (if st = .running then .reserved else st))

/-- client.go:154-165 `RepGroupMatches`: strings.Contains -/
def contains (s : Str) : Str → Bool
  | [] => s.isEmpty
  | c :: cs => s.isPrefixOf (c :: cs) || contains s cs

/-- server.go:2340-2382 `getJobsByKeys` -/
def byKeys (w : W) (keys : List Nat) : List Found :=
  keys.filterMap (fun k => (w.queue.find? (fun i => i.key = k)).map view) ++
  (keys.filter fun k => (w.queue.find? (fun i => i.key = k)).isNone && w.done.contains k).map fun k => { key := k, state := .complete }

/-- the options -f (the keys of the jobs described in the file), -i with -z and -y (as which it is a key), -l with -c and the mounts
(the key those make), and -a -/
structure Args where
  file : Option (List Nat) := none
  id : Option Str := none
  search : Bool := false
  internal : Bool := false
  /-- the key that -i is -/
  idKey : Nat := 0
  line : Option Nat := none
  all : Bool := false
deriving DecidableEq

/-- cmd/status.go:494-509 `countGetJobArgs` -/
def countArgs (a : Args) : Nat :=
  (if a.file.isSome then 1 else 0) + (if a.id.isSome then 1 else 0) + (if a.line.isSome then 1 else 0) + (if a.all then 1 else 0)

/-- cmd/status.go:511-567 `getJobs` -/
def getJobs (a : Args) (st : JobState) (w : W) : List Found :=
  if a.all then withState st (w.queue.map view)
  else
    match a.id with
    | some g =>
      if a.internal then byKeys w [a.idKey]
      else withState st ((w.queue.filter fun i => if a.search then contains g i.group else i.group = g).map view)
    | none =>
      match a.file with
      | some ks => byKeys w ks
      | none =>
        match a.line with
        | some k => byKeys w [k]
        | none => []

/-! ### Removing -/

/-- a job in the queue waits for this one -/
def hasDependents (q : List Item) (k : Nat) : Bool := q.any fun i => i.deps.contains k

/-- what one round has done: the queue, the keys deleted and those skipped -/
structure Round where
  queue : List Item
  deleted : List Nat := []
  skipped : List Nat := []

/-- server.go:2208-2234, for one job -/
def deleteOne (r : Round) (k : Nat) : Round :=
  if hasDependents r.queue k then
    (if (r.queue.find? (fun i => i.key = k)).isSome then { r with skipped := r.skipped ++ [k] } else r)
  else if (r.queue.find? (fun i => i.key = k)).isSome then
    { r with queue := r.queue.filter (fun i => i.key ≠ k), deleted := r.deleted ++ [k] }
  else r

/-- server.go:2201-2264 `deleteJobs`: rounds until nothing is deleted or nothing was skipped -/
def deleteJobs : Nat → List Item → List Nat → List Item × List Nat
  | 0, q, _ => (q, [])
  | n + 1, q, ks =>
    let r := ks.foldl deleteOne { queue := q }
    if r.deleted ≠ [] ∧ r.skipped ≠ [] then
      let (q, d) := deleteJobs n r.queue r.skipped
      (q, r.deleted ++ d)
    else (r.queue, r.deleted)

/-- serverCLI.go:445-469 jdel: jobs that are running are passed over -/
def jdel (q : List Item) (ks : List Nat) : List Item × List Nat :=
  let ks := ks.filter fun k => ((q.find? (fun i => i.key = k)).any fun i => i.sub ≠ .run)
  deleteJobs (ks.length + 1) q ks

/-- cmd/remove.go:67-106: none: it dies; else the new queue, the keys removed and how many were said to be eligible -/
def remove (a : Args) (onlyBuried : Bool) (w w' : W) : Option (W × List Nat × Nat) :=
  if countArgs a ≠ 1 then none
  else
    let jobs := getJobs a (if onlyBuried then .buried else .deletable) w
    if jobs = [] then none
    else
      let (q, d) := jdel w'.queue (jobs.map (·.key))
      some ({ w' with queue := q }, d, jobs.length)

/-! ### Killing -/

/-- server.go:2077-2145 `releaseJob` of a lost job -/
def releaseLost (i : Item) : Item :=
  { i with
    sub := if i.start.isSome && i.left = 1 then .bury else .delay
    left := if i.start.isSome then i.left - 1 else i.left }

/-- server.go:2177-2195 `killJob` -/
def killJob (i : Item) : Item :=
  if i.sub = .run then
    (if i.lost then releaseLost { i with killCalled := true } else { i with killCalled := true })
  else i

/-- serverCLI.go:602-623 jkill: the new queue, and how many were running -/
def jkill (q : List Item) : List Nat → List Item × Nat
  | [] => (q, 0)
  | k :: ks =>
    let n := if (q.find? (fun i => i.key = k)).any (fun i => i.sub = .run) then 1 else 0
    let (q, m) := jkill (q.map fun i => if i.key = k then killJob i else i) ks
    (q, n + m)

/-- job.go:423-433 `WallTime` -/
def wallTime (now : Nat) (f : Found) : Nat :=
  match f.start with
  | none => 0
  | some s =>
    match f.end_ with
    | none => now - s
    | some e => if f.state = .reserved then now - s else e - s

/-- cmd/kill.go:92-113: no age is 0; the time since the zero time is longer than any age -/
def older (now age : Nat) (confirmDead : Bool) (f : Found) : Bool :=
  if age = 0 then true
  else if confirmDead then
    (match f.end_ with
    | none => true
    | some e => now - e ≥ age)
  else wallTime now f ≥ age

/-- cmd/kill.go:62-127 -/
def kill (a : Args) (confirmDead : Bool) (age now : Nat) (w w' : W) : Option (W × Nat × Nat) :=
  if countArgs a ≠ 1 then none
  else
    let jobs := (getJobs a (if confirmDead then .lost else .running) w).filter (older now age confirmDead)
    if jobs = [] then none
    else
      let (q, n) := jkill w'.queue (jobs.map (·.key))
      some ({ w' with queue := q }, n, jobs.length)

/-- serverCLI.go:274-304 jstart -/
def jstart (now : Nat) (i : Item) : Item := { i with start := some now, end_ := none, killCalled := false, lost := false }

/-- serverCLI.go:305-343 jtouch: whether the answer is to kill the command -/
def jtouch (i : Item) : Bool := i.killCalled

/-! ### Retrying -/

/-- server.go:2314-2338, for one job -/
def kickJob (i : Item) : Item := if i.sub = .bury then { i with sub := .ready, left := i.retries + 1 } else i

/-- server.go:2314-2338 `kickJobs`: the new queue, and how many were kicked -/
def kickJobs (q : List Item) : List Nat → List Item × Nat
  | [] => (q, 0)
  | k :: ks =>
    let n := if (q.find? (fun i => i.key = k)).any (fun i => i.sub = .bury) then 1 else 0
    let (q, m) := kickJobs (q.map fun i => if i.key = k then kickJob i else i) ks
    (q, n + m)

/-- serverCLI.go:425-444 jkick -/
def jkick (q : List Item) (ks : List Nat) : List Item × Nat :=
  kickJobs q (ks.filter fun k => (q.find? (fun i => i.key = k)).any fun i => i.sub = .bury)

/-- cmd/retry.go:57-90 -/
def retry (a : Args) (w w' : W) : Option (W × Nat × Nat) :=
  if countArgs a ≠ 1 then none
  else
    let jobs := getJobs a .buried w
    if jobs = [] then none
    else
      let (q, n) := jkick w'.queue (jobs.map (·.key))
      some ({ w' with queue := q }, n, jobs.length)

end Verif.Cmd.Choose
