/-!
# Model of the life of a job in the manager

The requests "add", "reserve", "jstart", "jtouch", "jarchive", "jrelease", "jbury", "jkick",
"jkill", "jdel" of `/repo/jobqueue/serverCLI.go`, with `releaseJob`, `killJob`, `kickJobs` and
the TTR callback of `/repo/jobqueue/server.go`, and `updateAfterExit`, `decrementLimitGroups` of
`/repo/jobqueue/job.go`.

Simplifications: each request is one step. The queue is reduced to the sub-queue each job is in
(the queue itself is modelled in `Verif.Queue`; that Release, Bury, Kick, Remove and Reserve
succeed exactly in the states used here is C07 and C02 there). The limiter is reduced to a count
per group and a fixed optional limit (it is modelled in `Verif.Limiter`). Times are reduced to
"zero or not". Keys, clients and groups are numbers. The database is reduced to the sets of live
and of complete keys (its transactions are modelled in `Verif.Server.Db`). Dependencies are left
out, except for `depUpdate`.
-/

namespace Verif.Server

/-- Function update. -/
def upd {α : Type} (f : Nat → α) (i : Nat) (a : α) : Nat → α := fun j => if j = i then a else f j

/-- queue/queue.go: the sub-queues. -/
inductive Sub where
  | delay | ready | run | bury | dependent
  deriving DecidableEq, Repr

/-- job.go:55-66: the values of `Job.State` that these requests set. -/
inductive JState where
  | new | ready | running | delayed | buried
  deriving DecidableEq, Repr

/-- job.go:87-340 `Job`: the fields used here. `until'` is `UntilBuried` and is a byte.
`by'` is `ReservedBy` (`none`: nobody yet). `started`, `ended`: `StartTime`, `EndTime` are not
zero. `groups` are the limit groups in the name of its scheduler group; `held` is
`incrementedLimitGroups`. -/
structure Job where
  sub : Sub := .ready
  by' : Option Nat := none
  started : Bool := false
  ended : Bool := false
  exited : Bool := false
  code : Int := 0
  until' : Nat := 1
  retries : Nat := 0
  state : JState := .new
  killed : Bool := false
  lost : Bool := false
  groups : List Nat := []
  held : List Nat := []
  attempts : Nat := 0
  deriving DecidableEq, Repr

/-- client.go `JobEndState`, reduced to `Exited`, `Exitcode` and whether `EndTime` is set. -/
structure End where
  exited : Bool
  code : Int
  ended : Bool
  deriving DecidableEq, Repr

/-- The manager: jobs in the queue, the slots in use and limits of limit groups, and the keys of
the live and complete buckets of the database. -/
structure Life where
  jobs : Nat → Option Job := fun _ => none
  cnt : Nat → Nat := fun _ => 0
  lim : Nat → Option Nat := fun _ => none
  live : Nat → Bool := fun _ => false
  done : Nat → Bool := fun _ => false

/-- What a client is answered. -/
inductive Resp where
  | ok | dup | nothing | badJob | mustReserve | badRequest | internal | kill (b : Bool)
  deriving DecidableEq, Repr

/-- The requests and timer events. -/
inductive Op where
  | add (k retries : Nat) (groups : List Nat)
  | reserve (c k : Nat)
  | jstart (c k : Nat) (valid : Bool)
  | jtouch (c k : Nat)
  | jarchive (c k : Nat) (e : Option End)
  | jrelease (c k : Nat) (e : Option End)
  | jbury (c k : Nat) (e : Option End)
  | jkick (k : Nat)
  | jkill (k : Nat)
  | jdel (k : Nat)
  | ttr (k : Nat)
  | reap (k : Nat)
  | delayed (k : Nat)
  | depUpdate (k : Nat)
  deriving DecidableEq, Repr

/-- limiter/limiter.go `Decrement` of one group: groups without limit are not counted, and a
count does not go below zero. -/
def dec1 (lim : Nat → Option Nat) (cnt : Nat → Nat) (g : Nat) : Nat → Nat :=
  if (lim g).isSome then upd cnt g (cnt g - 1) else cnt

/-- limiter/limiter.go `Increment` of one group. -/
def inc1 (lim : Nat → Option Nat) (cnt : Nat → Nat) (g : Nat) : Nat → Nat :=
  if (lim g).isSome then upd cnt g (cnt g + 1) else cnt

/-- limiter.go `checkGroups`: no group of the list is at its limit. -/
def admits (s : Life) (gs : List Nat) : Bool :=
  gs.all fun g => match s.lim g with | none => true | some n => s.cnt g < n

/-- job.go:842-849 `decrementLimitGroups`: the counts after it. -/
def dropHeld (lim : Nat → Option Nat) (cnt : Nat → Nat) (held : List Nat) : Nat → Nat :=
  held.foldl (dec1 lim) cnt

/-- job.go:813-837 `updateAfterExit`: the job after it. -/
def afterExit (j : Job) (e : Option End) : Job :=
  if j.exited then j
  else match e with
    | none => { j with held := [] }
    | some e =>
      if e.exited then
        { j with held := [], exited := true, code := e.code, ended := e.ended }
      else { j with held := [] }

/-- job.go:813-837 `updateAfterExit`: the counts after it. -/
def afterExitCnt (s : Life) (j : Job) : Nat → Nat :=
  if j.exited then s.cnt else dropHeld s.lim s.cnt j.held

/-- Store a job and counts. -/
def put (s : Life) (k : Nat) (j : Job) (cnt : Nat → Nat) : Life :=
  { s with jobs := upd s.jobs k (some j), cnt := cnt }

/-- server.go:2116-2136, the second half of `releaseJob`: what is recorded on the job once its
item is in the right sub-queue. -/
def endRun (s : Life) (k : Nat) (j : Job) (e : Option End) (force : Bool) : Life :=
  let j1 := afterExit j e
  let u := if force then 0 else if j1.started then (j1.until' + 255) % 256 else j1.until'
  put s k { j1 with until' := u, state := if u = 0 then .buried else .delayed }
    (afterExitCnt s j)

/-- server.go:2077-2145 `releaseJob`. (The deletion requested by a behaviour, 2107, is the op
`jdel` later on.) -/
def releaseJob (s : Life) (k : Nat) (j : Job) (e : Option End) (force : Bool) : Life × Resp :=
  if force || (j.started && j.until' == 1) then
    if j.sub = .bury then
      if j.state = .buried then (s, .ok) else (endRun s k j e force, .ok)
    else if j.sub = .run then (endRun s k { j with sub := .bury } e force, .ok)
    else (s, .internal)
  else if j.sub = .delay then
    if j.state = .delayed then (s, .ok) else (endRun s k j e force, .ok)
  else if j.sub = .run then (endRun s k { j with sub := .delay } e force, .ok)
  else (s, .internal)

/-- serverCLI.go:753-770 `getij`: the job, or the error. -/
def getij (s : Life) (c k : Nat) (checkRunning : Bool) : Except Resp Job :=
  match s.jobs k with
  | none => .error .badJob
  | some j =>
    if checkRunning && j.sub ≠ .run then .error .badJob
    else if j.by' ≠ some c then .error .mustReserve
    else .ok j

/-- server.go:1866-1940 `createJobs` for one job, with queue `AddMany`. -/
def add (s : Life) (k retries : Nat) (groups : List Nat) : Life × Resp :=
  match s.jobs k with
  | some _ => ({ s with live := upd s.live k true }, .dup)
  | none =>
    ({ s with
        jobs := upd s.jobs k
          (some { until' := (retries + 1) % 256, retries := retries, groups := groups }),
        live := upd s.live k true }, .ok)

/-- serverCLI.go:191-271 "reserve" and 893-924 `reserveWithLimits`, when the queue hands out job
`k` to client `c` asking for the scheduler group of `k`. -/
def reserve (s : Life) (c k : Nat) : Life × Resp :=
  match s.jobs k with
  | none => (s, .nothing)
  | some j =>
    if j.sub = .ready && admits s j.groups then
      (put s k
        { j with sub := .run, by' := some c, exited := false, started := false, ended := false,
                 code := -1, held := if j.groups.isEmpty then j.held else j.groups }
        (j.groups.foldl (inc1 s.lim) s.cnt), .ok)
    else (s, .nothing)

/-- serverCLI.go:274-304 "jstart". `valid`: the pid is positive and the host is given. -/
def jstart (s : Life) (c k : Nat) (valid : Bool) : Life × Resp :=
  match getij s c k true with
  | .error r => (s, r)
  | .ok j =>
    if valid then
      (put s k { j with started := true, ended := false, attempts := j.attempts + 1,
                        killed := false, lost := false, state := .running } s.cnt, .ok)
    else (s, .badRequest)

/-- serverCLI.go:305-343 "jtouch" (the flag that kills all runners at shutdown is left out). -/
def jtouch (s : Life) (c k : Nat) : Life × Resp :=
  match getij s c k true with
  | .error r => (s, r)
  | .ok j =>
    if j.killed then (s, .kill true)
    else (put s k { j with lost := false, ended := if j.lost then false else j.ended } s.cnt,
          .kill false)

/-- serverCLI.go:344-390 "jarchive". -/
def jarchive (s : Life) (c k : Nat) (e : Option End) : Life × Resp :=
  match getij s c k true with
  | .error r => (s, r)
  | .ok j =>
    let j1 := afterExit j e
    let cnt := afterExitCnt s j
    if !j1.exited || j1.code ≠ 0 || !j1.started || !j1.ended then (put s k j1 cnt, .badRequest)
    else
      ({ s with jobs := upd s.jobs k none, cnt := cnt, live := upd s.live k false,
                done := upd s.done k true }, .ok)

/-- serverCLI.go:391-407 "jrelease". -/
def jrelease (s : Life) (c k : Nat) (e : Option End) : Life × Resp :=
  match getij s c k false with
  | .error r => (s, r)
  | .ok j => releaseJob s k j e false

/-- serverCLI.go:408-424 "jbury". -/
def jbury (s : Life) (c k : Nat) (e : Option End) : Life × Resp :=
  match getij s c k false with
  | .error r => (s, r)
  | .ok j => releaseJob s k j e true

/-- serverCLI.go:425-444 "jkick" and server.go:2314-2336 `kickJobs`. -/
def jkick (s : Life) (k : Nat) : Life × Resp :=
  match s.jobs k with
  | none => (s, .nothing)
  | some j =>
    if j.sub = .bury then
      (put s k { j with sub := .ready, until' := (j.retries + 1) % 256, state := .ready } s.cnt,
       .ok)
    else (s, .nothing)

/-- server.go:2177-2195 `killJob` (requests "jkill", and `confirmJobDeadAndKill`). -/
def jkill (s : Life) (k : Nat) : Life × Resp :=
  match s.jobs k with
  | none => (s, .nothing)
  | some j =>
    if j.sub = .run then
      if j.lost then
        releaseJob s k { j with killed := true }
          (some { exited := true, code := -1, ended := false }) false
      else (put s k { j with killed := true } s.cnt, .ok)
    else (s, .nothing)

/-- serverCLI.go:445-469 "jdel" and server.go:2201-2264 `deleteJobs` for a job without
dependents. -/
def jdel (s : Life) (k : Nat) : Life × Resp :=
  match s.jobs k with
  | none => (s, .nothing)
  | some j =>
    if j.sub = .run then (s, .nothing)
    else ({ s with jobs := upd s.jobs k none, live := upd s.live k false }, .ok)

/-- server.go:1785-1836, the TTR callback: a started job that has not exited is marked lost and
stays in the run sub-queue; any other goes to the delay sub-queue. -/
def ttr (s : Life) (k : Nat) : Life × Resp :=
  match s.jobs k with
  | none => (s, .nothing)
  | some j =>
    if j.sub = .run then
      if j.started && !j.exited then (put s k { j with lost := true, ended := true } s.cnt, .ok)
      else (put s k { j with sub := .delay, held := [] } (dropHeld s.lim s.cnt j.held), .ok)
    else (s, .nothing)

/-- server.go:1809-1819: the release, by the TTR callback's goroutine, of a lost job for which
kill was called. -/
def reap (s : Life) (k : Nat) : Life × Resp :=
  match s.jobs k with
  | none => (s, .nothing)
  | some j =>
    if j.killed && j.lost then
      releaseJob s k j (some { exited := true, code := -1, ended := false }) false
    else (s, .nothing)

/-- The delay of a released job has passed. -/
def delayed (s : Life) (k : Nat) : Life × Resp :=
  match s.jobs k with
  | none => (s, .nothing)
  | some j =>
    if j.sub = .delay then (put s k { j with sub := .ready } s.cnt, .ok) else (s, .nothing)

/-- server.go:1985-2004 `updateJobDependencies` for a queued job when a new job is added to a
dependency group it depends on: its item is moved to the dependent sub-queue, whatever it was
doing, and its data is replaced by the copy of the job decoded from the database (which has no
`incrementedLimitGroups`, an unexported field; the rest of the copy is taken to be up to date). -/
def depUpdate (s : Life) (k : Nat) : Life × Resp :=
  match s.jobs k with
  | none => (s, .nothing)
  | some j => (put s k { j with sub := .dependent, held := [] } s.cnt, .ok)

/-- One step. -/
def lstep (s : Life) : Op → Life × Resp
  | .add k r gs => add s k r gs
  | .reserve c k => reserve s c k
  | .jstart c k v => jstart s c k v
  | .jtouch c k => jtouch s c k
  | .jarchive c k e => jarchive s c k e
  | .jrelease c k e => jrelease s c k e
  | .jbury c k e => jbury s c k e
  | .jkick k => jkick s k
  | .jkill k => jkill s k
  | .jdel k => jdel s k
  | .ttr k => ttr s k
  | .reap k => reap s k
  | .delayed k => delayed s k
  | .depUpdate k => depUpdate s k

/-- A history. -/
def lrun (s : Life) : List Op → Life
  | [] => s
  | o :: os => lrun (lstep s o).1 os

/-- A manager that was just started, with no jobs and nothing counted. -/
def fresh (lim : Nat → Option Nat) : Life := { lim := lim }

end Verif.Server
