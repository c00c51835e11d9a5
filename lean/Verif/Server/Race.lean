/-
Concurrent requests (C124): reserving, finishing, kicking and archiving jobs
when the requests of many clients are handled at the same time.  The server
handles every request in its own goroutine (server.go 1008-1020) and takes the
locks of the queue, the limiter and the job one after another; here each step
between two locks is an event of its own, and the events of all requests
interleave freely.

Simplifications: the limit groups of a job don't change and clients reserve
with the scheduler group of the jobs they get, so the limit groups of the
request are those of the job; a key is added once; a test of the state of an
item and the queue operation directly after it are one step; the limiter is
changed in the same step as the job that notes it (the job's lock is held
meanwhile); counters that wrap are natural numbers; time-outs of running jobs,
kills and modifications of jobs are not part of this model (see Life and Dead).
-/
namespace Verif.Server.Race

/-- queue.go: the sub-queues; `absent`: not added yet, `gone`: removed -/
inductive Sub | absent | ready | run | delay | bury | gone
deriving DecidableEq, Repr

/-- job.State, as far as it matters here -/
inductive St | other | delayed | buried | ready | running | complete
deriving DecidableEq, Repr

/-- job.go: the fields of a Job that these requests touch; `sub` is the state
of its queue item, `held` is incrementedLimitGroups, `ub` UntilBuried, `ok` that
Exitcode is 0. -/
structure Job where
  sub : Sub
  owner : Option Nat
  exited : Bool
  ok : Bool
  started : Bool
  ub : Nat
  retries : Nat
  st : St
  held : List Nat
  groups : List Nat
deriving DecidableEq, Repr

/-- JobEndState: Exited, and Exitcode = 0 -/
structure End where
  exited : Bool
  ok : Bool
deriving DecidableEq, Repr

inductive Kind | release | bury | archive
deriving DecidableEq, Repr

/-- How far the handling of a request is. -/
inductive Thr
  | resv (c : Nat) (gs : List Nat)            -- reserve: before limiter.Increment
  | slot (c : Nat) (gs : List Nat)            -- before q.Reserve
  | empty (gs : List Nat)                     -- nothing ready: before limiter.Decrement
  | got (c : Nat) (gs : List Nat) (k : Nat)   -- before noteIncrementedLimitGroups
  | noted (c k : Nat)                         -- before the fields of the job are cleaned
  | reply (c k : Nat)                         -- before the reply
  | fin (c k : Nat) (e : End) (fb : Bool)     -- jrelease, jbury: after getij
  | act (c k : Nat) (e : End) (fb bury : Bool) (cur : St) -- before the queue operation
  | chk (k : Nat) (e : End) (fb : Bool)       -- updateAfterExit: before the test of Exited
  | dec (k : Nat) (e : End) (fb : Bool)       -- before decrementLimitGroups
  | set (k : Nat) (e : End) (fb : Bool)       -- before Exited etc. are set
  | last (k : Nat) (fb : Bool)                -- before State etc. are set
  | achk (c k : Nat) (e : End)                -- jarchive: the same
  | adec (c k : Nat) (e : End)
  | aset (c k : Nat) (e : End)
  | alock (c k : Nat)                         -- before the tests under the job's lock
  | arem (c k : Nat)                          -- before the removal from the queue
  | st (c k : Nat)                            -- jstart: after getij
  | kicked (k : Nat)                          -- jkick: after q.Kick
  | done
deriving DecidableEq, Repr

/-- what clients are told about the end of a job -/
inductive Told
  | mustReserve (c k : Nat)   -- ErrMustReserve, or ErrBadJob from getij
  | badJob (c k : Nat)
  | badRequest (c k : Nat)
  | notRunning (c k : Nat)    -- the queue refuses
  | archived (c k : Nat)
deriving DecidableEq, Repr

/-- The server and its clients: `has` are the pairs of a client and a job it
was handed by a reply and for which it has not yet asked for a release, burial
or archiving. -/
structure S where
  jobs : Nat → Job
  lim : Nat → Option Nat
  count : Nat → Nat
  thr : List Thr
  has : List (Nat × Nat)
  told : List Told

def noJob : Job := ⟨.absent, none, false, false, false, 1, 0, .other, [], []⟩

def init (lim : Nat → Option Nat) : S := ⟨fun _ => noJob, lim, fun _ => 0, [], [], []⟩

def put (s : S) (k : Nat) (j : Job) : S := { s with jobs := fun x => if x = k then j else s.jobs x }

inductive Ev
  | add (k retries : Nat) (groups : List Nat)
  | reserve (c : Nat) (gs : List Nat)
  | finish (i : Nat) (e : End) (kind : Kind)        -- the i-th of `has`, once
  | again (c k : Nat) (e : End) (kind : Kind)       -- any other such request
  | start (c k : Nat)
  | step (i : Nat) (choice : Option Nat)            -- a goroutine goes on
  | expire (k : Nat)                                -- the delay is over
  | kick (k : Nat)
  | del (k : Nat)
deriving DecidableEq, Repr

/-- limiter.go 118-124, 153-163: checkGroups -/
def room (s : S) (gs : List Nat) : Bool :=
  gs.all fun g => match s.lim g with
    | none => true
    | some n => s.count g < n

/-- limiter.go 167-174 incrementGroups -/
def inc (s : S) (gs : List Nat) : S := { s with count := fun g => s.count g + gs.count g }

/-- limiter.go 209-220 Decrement -/
def decr (s : S) (gs : List Nat) : S := { s with count := fun g => s.count g - gs.count g }

/-- serverCLI.go 344-356, 391-397, 408-414, getij 753-770: the request of a
client to end a job; it becomes a goroutine, or is refused at once. -/
def request (s : S) (c k : Nat) (e : End) (kind : Kind) : S :=
  let j := s.jobs k
  if j.sub = .absent ∨ j.sub = .gone then { s with told := s.told ++ [.badJob c k] }
  else if kind = .archive ∧ j.sub ≠ .run then { s with told := s.told ++ [.badJob c k] }
  else if j.owner ≠ some c then { s with told := s.told ++ [.mustReserve c k] }
  else
    match kind with
    | .release => { s with thr := s.thr ++ [.fin c k e false] }
    | .bury => { s with thr := s.thr ++ [.fin c k e true] }
    | .archive => { s with thr := s.thr ++ [.achk c k e] }

def go (s : S) (i : Nat) (t : Thr) : S := { s with thr := s.thr.set i t }

def tell (s : S) (t : Told) : S := { s with told := s.told ++ [t] }

/-- One step of the goroutine at index `i`, which is at `t`. -/
def stepThr (s : S) (i : Nat) (choice : Option Nat) : Thr → Option S
  -- serverCLI.go 902-906: Increment, or the time is up
  | .resv c gs => if room s gs then some (go (inc s gs) i (.slot c gs)) else some (go s i .done)
  -- serverCLI.go 913: the queue has an item for the group, or nothing
  | .slot c gs =>
    match choice with
    | none => some (go s i (.empty gs))
    | some k =>
      let j := s.jobs k
      if j.sub = .ready ∧ j.groups = gs then some (go (put s k { j with sub := .run }) i (.got c gs k)) else none
  -- serverCLI.go 916-917
  | .empty gs => some (go (decr s gs) i .done)
  -- serverCLI.go 918-920
  | .got c gs k => some (go (put s k { s.jobs k with held := gs }) i (.noted c k))
  -- serverCLI.go 244-258
  | .noted c k =>
    some (go (put s k { s.jobs k with owner := some c, exited := false, started := false, ok := false }) i (.reply c k))
  -- serverCLI.go 267-269
  | .reply c k => some { go s i .done with has := s.has ++ [(c, k)] }
  -- server.go 2080-2087
  | .fin c k e fb =>
    let j := s.jobs k
    some (go s i (.act c k e fb (fb || (j.started && j.ub = 1)) j.st))
  -- server.go 2089-2116
  | .act c k e fb bury cur =>
    let j := s.jobs k
    if j.sub = .gone ∨ j.sub = .absent then some (tell (go s i .done) (.notRunning c k))
    else if bury then
      if j.sub = .bury then (if cur = .buried then some (go s i .done) else some (go s i (.chk k e fb)))
      else if j.sub = .run then some (go (put s k { j with sub := .bury }) i (.chk k e fb))
      else some (tell (go s i .done) (.notRunning c k))
    else
      if j.sub = .delay then (if cur = .delayed then some (go s i .done) else some (go s i (.chk k e fb)))
      else if j.sub = .run then some (go (put s k { j with sub := .delay }) i (.chk k e fb))
      else some (tell (go s i .done) (.notRunning c k))
  -- job.go 813-819
  | .chk k e fb => some (go s i (if (s.jobs k).exited then .last k fb else .dec k e fb))
  -- job.go 820, 842-850
  | .dec k e fb =>
    let j := s.jobs k
    some (go (put (decr s j.held) k { j with held := [] }) i (if e.exited then .set k e fb else .last k fb))
  -- job.go 826-836
  | .set k e fb => some (go (put s k { s.jobs k with exited := true, ok := e.ok }) i (.last k fb))
  -- server.go 2120-2139
  | .last k fb =>
    let j := s.jobs k
    let ub := if fb then 0 else if j.started then j.ub - 1 else j.ub
    some (go (put s k { j with ub := ub, st := if ub = 0 then .buried else .delayed }) i .done)
  -- serverCLI.go 355, job.go 813-836
  | .achk c k e => some (go s i (if (s.jobs k).exited then .alock c k else .adec c k e))
  | .adec c k e =>
    let j := s.jobs k
    some (go (put (decr s j.held) k { j with held := [] }) i (if e.exited then .aset c k e else .alock c k))
  | .aset c k e => some (go (put s k { s.jobs k with exited := true, ok := e.ok }) i (.alock c k))
  -- serverCLI.go 356-371
  | .alock c k =>
    let j := s.jobs k
    if j.sub ≠ .run then some (tell (go s i .done) (.badJob c k))
    else if ¬ j.exited ∨ ¬ j.ok ∨ ¬ j.started then some (tell (go s i .done) (.badRequest c k))
    else some (go (put s k { j with st := .complete }) i (.arem c k))
  -- serverCLI.go 372-388
  | .arem c k => some (tell (go (put s k { s.jobs k with sub := .gone }) i .done) (.archived c k))
  -- serverCLI.go 279-298
  | .st _ k => some (go (put s k { s.jobs k with started := true, st := .running }) i .done)
  -- server.go 2322-2327
  | .kicked k =>
    let j := s.jobs k
    some (go (put s k { j with ub := j.retries + 1, st := .ready }) i .done)
  | .done => none

def step (s : S) : Ev → Option S
  -- server.go 1866-1940: a new job, with unique limit groups
  | .add k r gs =>
    if (s.jobs k).sub = .absent ∧ gs.Nodup then
      some (put s k ⟨.ready, none, false, false, false, r + 1, r, .ready, [], gs⟩)
    else none
  -- serverCLI.go 191-232, 893-901
  | .reserve c gs => if gs.Nodup then some { s with thr := s.thr ++ [.resv c gs] } else none
  | .finish i e kind =>
    match s.has[i]? with
    | some (c, k) => some (request { s with has := s.has.eraseIdx i } c k e kind)
    | none => none
  | .again c k e kind => some (request s c k e kind)
  -- serverCLI.go 274-278
  | .start c k =>
    let j := s.jobs k
    if j.sub = .run ∧ j.owner = some c then some { s with thr := s.thr ++ [.st c k] } else none
  | .step i choice =>
    match s.thr[i]? with
    | some t => stepThr s i choice t
    | none => none
  -- queue.go 1221-1286
  | .expire k =>
    let j := s.jobs k
    if j.sub = .delay then some (put s k { j with sub := .ready }) else none
  -- serverCLI.go 425-444, server.go 2314-2321
  | .kick k =>
    let j := s.jobs k
    if j.sub = .bury then some { put s k { j with sub := .ready } with thr := s.thr ++ [.kicked k] } else none
  -- server.go 2201-2264: not of running jobs
  | .del k =>
    let j := s.jobs k
    if j.sub = .ready ∨ j.sub = .delay ∨ j.sub = .bury then some (put s k { j with sub := .gone }) else none

def run (s : S) : List Ev → Option S
  | [] => some s
  | e :: es => (step s e).bind fun s' => run s' es

end Verif.Server.Race
