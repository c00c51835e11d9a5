import Verif.Server.Listing
import Verif.Server.Delete

/-!
# Model of choosing jobs over the REST API and the web interface, and of what is done with them

`/repo/jobqueue/serverREST.go:584-930` `restJobs`, `restJobsStatus`, `restJobsAdd`, `restJobsCancel`;
`/repo/jobqueue/serverWebI.go:340-375, 469-510` the requests "retry", "remove" and "kill", and `reqToJobs`;
`/repo/jobqueue/server.go:2149-2195, 2340-2600` `inputToQueuedJobs`, `killJob`, `getJobsByKeys`, `getJobsByRepGroup`,
`getJobsCurrent`; `/repo/jobqueue/serverCLI.go:772-862` `itemStateToJobState`, `itemToJob`.

A request is one step. The queue is the model of `Verif.Queue`; a job is named by its key. Left out: outputs and
environments of the jobs, authorization (`Verif.Server.Auth`), errors of the database, the conversion of jobs to JSON. What
becomes of a lost job that is confirmed to be dead is modelled in `Verif.Server.Life`; here it only is no longer running.
-/

namespace Verif.Server.Rest
open Verif.Queue (Q)
open Verif.Server.Listing (Job JobState Opts Groups limitJobs)

/-- job.go:98-340: what is known of a job in the queue besides its item. -/
structure Attr where
  lost : Bool := false
  /-- StartTime is set -/
  started : Bool := false
  exitcode : Int := 0
  failReason : String := ""

/-- A complete job: its key and the rep groups it is stored with. -/
structure Done where
  key : String
  groups : List String := []

/-- The server. -/
structure S where
  q : Q := {}
  attr : String → Attr := fun _ => {}
  /-- server.go:188-230: the lookup from rep groups to keys -/
  rpl : String → List String := fun _ => []
  /-- the complete jobs, in the order of their start -/
  done : List Done := []
  /-- db.go:838-849: all rep groups there have been -/
  rgs : List String := []
  /-- jobs of which killCalled was set -/
  killed : List String := []
  /-- lost jobs that were confirmed to be dead -/
  dead : List String := []

/-- job.go:89-96, serverCLI.go:772-780 `itemStateToJobState` -/
def jobState (st : Queue.State) (lost : Bool) : JobState :=
  match st with
  | .delay => .delayed
  | .ready => .ready
  | .run => if lost then .lost else .reserved
  | .bury => .buried
  | .dependent => .dependent
  | .removed => .complete

/-- serverCLI.go:797-862 `itemToJob`; Lost is not copied -/
def toJob (s : S) (k : String) (i : Nat) : Job :=
  let a := s.attr k
  let st := jobState (s.q.store i).state a.lost
  { key := k, state := if st = .reserved ∧ a.started = true then .running else st, exitcode := a.exitcode,
    failReason := a.failReason }

/-- a complete job as it was stored -/
def doneJob (d : Done) : Job := { key := d.key, state := .complete }

/-- server.go:2340-2383 `getJobsByKeys` for one key -/
def byKey (s : S) (k : String) : List Job :=
  match s.q.find k with
  | some i => [toJob s k i]
  | none => ((s.done.find? fun d => d.key = k).map doneJob).toList

/-- server.go:2462-2477 `getQueueJobsByRepGroup` -/
def ofGroup (s : S) (g : String) : List Job := (s.rpl g).filterMap fun k => (s.q.find k).map (toJob s k)

/-- server.go:2480-2503 `getDBJobsByRepGroup` -/
def doneOf (s : S) (g : String) (state : Option JobState) : List Job :=
  if state ≠ none ∧ state ≠ some .complete then []
  else (s.done.filter fun d => g ∈ d.groups).map doneJob

/-- Go's strings.Contains -/
def contains (t sub : List Char) : Bool :=
  match t with
  | [] => sub.isEmpty
  | c :: t => sub.isPrefixOf (c :: t) || contains t sub

/-- server.go:2441-2460 `getRepGroupsList`, client.go:154-165 -/
def groupsOf (s : S) (g : String) (search : Bool) : List String :=
  if search then s.rgs.filter fun rg => contains rg.toList g.toList else [g]

/-- server.go:2419-2438 `getJobsByRepGroup` -/
def byGroup (order : Groups → Groups) (s : S) (g : String) (search : Bool) (o : Opts) : List Job :=
  limitJobs order o ((groupsOf s g search).flatMap fun rg => ofGroup s rg ++ doneOf s rg o.state)

/-- server.go:2535-2569 `getJobsCurrent` without a group; `all` is the order in which the map of items is visited -/
def current (order : Groups → Groups) (all : List (String × Nat) → List (String × Nat)) (s : S) (o : Opts) : List Job :=
  limitJobs order o ((all s.q.items).map fun p => toJob s p.1 p.2)

/-- The parameters of a request that are used here; `ids` is the path after the end point, split at commas. -/
structure Form where
  ids : List String := []
  search : String := ""
  limit : String := ""
  state : String := ""

/-- serverREST.go:664-685: the state asked for -/
def parseState (t : String) : Option JobState :=
  if t = "delayed" then some .delayed
  else if t = "ready" then some .ready
  else if t = "reserved" then some .reserved
  else if t = "running" then some .running
  else if t = "lost" then some .lost
  else if t = "buried" then some .buried
  else if t = "dependent" then some .dependent
  else if t = "complete" then some .complete
  else if t = "deletable" then some .deletable
  else none

/-- serverREST.go:691-717: the jobs of one id -/
def ofId (order : Groups → Groups) (s : S) (search : Bool) (o : Opts) (id : String) : List Job :=
  if id.length = 32 ∧ byKey s id ≠ [] then byKey s id else byGroup order s id search o

/-- The answer to a request: the HTTP status, the jobs in the body, and the server afterwards. -/
structure Out where
  code : Nat
  jobs : List Job := []
  s : S

/-- serverREST.go:643-728 `restJobsStatus`; `atoi` is strconv.Atoi -/
def status (atoi : String → Option Int) (order : Groups → Groups) (all : List (String × Nat) → List (String × Nat)) (s : S)
    (f : Form) : Nat × List Job :=
  match (if f.limit ≠ "" then atoi f.limit else some 0) with
  | none => (400, [])
  | some limit =>
    let o : Opts := { limit, state := parseState f.state }
    if f.ids = [] then (200, current order all s o)
    else (200, f.ids.flatMap (ofId order s (f.search = "true") o))

/-- server.go:2177-2195 `killJob`; none: the job is not in the queue -/
def killJob (s : S) (k : String) : Option (Bool × S) :=
  match s.q.find k with
  | none => none
  | some i =>
    if (s.q.store i).state ≠ .run ∨ k ∈ s.dead then some (false, s)
    else some (true, { s with killed := k :: s.killed, dead := if (s.attr k).lost then k :: s.dead else s.dead })

/-- serverREST.go:917-927: the loop -/
def killAll (s : S) (handled : List Job) : List Job → Out
  | [] => { code := 202, jobs := handled, s }
  | j :: js =>
    match killJob s j.key with
    | none => { code := 500, s }
    | some (k, s') => killAll s' (if k then handled ++ [j] else handled) js

/-- serverREST.go:888-930 `restJobsCancel`; none: the queue panics -/
def cancel (atoi : String → Option Int) (order : Groups → Groups) (all : List (String × Nat) → List (String × Nat)) (s : S)
    (f : Form) : Option Out :=
  if ¬ (f.state = "running" ∨ f.state = "lost" ∨ f.state = "deletable") then some { code := 400, s }
  else
    match status atoi order all s f with
    | (200, jobs) =>
      if f.state = "deletable" then
        (Delete.deleteJobs s.q (jobs.map (·.key))).map fun r =>
          { code := 200, jobs := (jobs.filter fun j => j.key ∈ r.2).map fun j => { j with state := .deleted }
            s := { s with q := r.1 } }
      else some (killAll s [] jobs)
    | (c, _) => some { code := c, s }

/-- serverREST.go:846-886 the end of `restJobsAdd`, with server.go:2149-2164: `convert` makes a job, with its key, of what
was posted, `create` is `createJobs`. -/
def post {α β : Type} (convert : α → Option (String × β)) (create : S → List (String × β) → Option S) (s : S) (l : List α) : Out :=
  match l.mapM convert with
  | none => { code := 400, s }
  | some js =>
    match create s js with
    | none => { code := 500, s }
    | some s' => { code := 201, jobs := js.filterMap fun j => (s'.q.find j.1).map (toJob s' j.1), s := s' }

/-- A request of the status page. -/
structure Req where
  repGroup : String := ""
  key : String := ""
  exitcode : Int := 0
  failReason : String := ""

/-- serverWebI.go:469-510 `reqToJobs`: the keys of the jobs -/
def reqToJobs (s : S) (r : Req) (allowed : List Queue.State) : List String :=
  if r.repGroup ≠ "" then
    (s.rpl r.repGroup).filter fun k => match s.q.find k with
      | none => false
      | some i => (s.q.store i).state ∈ allowed ∧ (s.attr k).exitcode = r.exitcode ∧ (s.attr k).failReason = r.failReason
  else if r.key ≠ "" then
    match s.q.find r.key with
    | none => []
    | some i => if (s.q.store i).state ∈ allowed then [r.key] else []
  else []

/-- serverWebI.go:346-349 "remove" -/
def webRemove (s : S) (r : Req) : Option (Q × List String) :=
  Delete.deleteJobs s.q (reqToJobs s r [.bury, .delay, .dependent, .ready])

/-- serverWebI.go:350-357 "kill" -/
def webKill (s : S) (r : Req) : S :=
  (reqToJobs s r [.run]).foldl (fun s k => match killJob s k with
    | none => s
    | some (_, s') => s') s

/-- serverWebI.go:343-345 "retry": the jobs that are kicked -/
def webRetry (s : S) (r : Req) : List String := reqToJobs s r [.bury]

end Verif.Server.Rest
