/-!
# Telling the server how a job ended (jobqueue/client.go:1603-1771, 1436-1533, jobqueue/serverCLI.go:274-424, jobqueue/server.go:2077-2145)

A client that reserved a job tells the server that it started it and how it ended, and keeps a copy of the job up to date.
The server has its own copy, and its queue. Answers may get lost, after which `Execute` tells it again.

Simplifications: one job, and one client that reserved it; what anybody else does to the job meanwhile is a list of events.
A request is one step of the server (its handlers run one request per job at a time, apart from the locks inside them). Times
are numbers, 0 being the zero time. Fields of the job that both sides treat alike as those modelled (Host, HostIP and StdOutC,
StdErrC) are left out, as are the database (no error from it) and the deletion of a job that is asked for while it runs.
-/
namespace Verif.Client.Report

/-- the states of a job that occur here (jobqueue/job.go:89-103) -/
inductive State where
  | ready | reserved | running | delayed | buried | complete
  deriving DecidableEq, Repr

/-- jobqueue/client.go:1644-1654 `JobEndState` -/
structure Jes where
  exited : Bool := false
  code : Int := 0
  ram : Nat := 0
  disk : Nat := 0
  cpu : Nat := 0
  endT : Nat := 0
  cwd : String := ""
  deriving DecidableEq, Repr

/-- the fields of `Job` (job.go:280-345) that describe its last run. `untilBuried` is a `uint8`. -/
structure Job where
  state : State
  untilBuried : Nat
  exited : Bool
  code : Int
  ram : Nat
  disk : Nat
  cpu : Nat
  startT : Nat
  endT : Nat
  cwd : String
  reason : String
  attempts : Nat
  pid : Int
  deriving DecidableEq, Repr

/-- `n--` for a `uint8` -/
def dec8 (n : Nat) : Nat := if n = 0 then 255 else n - 1

/-- the sub-queue of the job's item, or that it is not in the queue -/
inductive Sub where
  | run | delay | bury | ready | gone
  deriving DecidableEq, Repr

/-- the server: its copy of the job, the sub-queue, and whether `ReservedBy` is this client. `ends` counts the times that the end of the present run was
carried out, and is not in the code. -/
structure Srv where
  job : Job
  sub : Sub
  mine : Bool
  retries : Nat
  ends : Nat := 0
  deriving DecidableEq, Repr

/-- what the server answers: no error, or which -/
inductive Ans where
  | ok | badJob | badRequest | mustReserve | internal
  deriving DecidableEq, Repr

/-- job.go:813-837 `updateAfterExit` -/
def updateAfterExit (j : Job) (e : Jes) : Job :=
  if j.exited then j
  else if e.exited then
    { j with exited := true, code := e.code, ram := e.ram, disk := e.disk, cpu := e.cpu, endT := e.endT,
             cwd := if e.cwd = "" then j.cwd else e.cwd }
  else j

/-- server.go:2119-2138: what `releaseJob` does to the job once the item was moved -/
def afterRelease (j : Job) (e : Jes) (reason : String) (forceBury : Bool) : Job :=
  let j := updateAfterExit j e
  let j := if forceBury then { j with untilBuried := 0 }
           else if j.startT ≠ 0 then { j with untilBuried := dec8 j.untilBuried } else j
  { j with state := if j.untilBuried = 0 then .buried else .delayed, reason := reason }

/-- server.go:2077-2145 `releaseJob`; none: the error of the queue. `queue.Bury` and `queue.Release` need the item to be running
(queue.go:1030, 1075). -/
def releaseJob (s : Srv) (e : Jes) (reason : String) (forceBury : Bool) : Option Srv :=
  let bury := forceBury || (decide (s.job.startT ≠ 0) && decide (s.job.untilBuried = 1))
  if s.sub = .gone then none
  else if bury then
    if s.sub = .bury then
      if s.job.state = .buried then some s
      else some { s with job := afterRelease s.job e reason forceBury, ends := s.ends + 1 }
    else if s.sub = .run then some { s with job := afterRelease s.job e reason forceBury, sub := .bury, ends := s.ends + 1 }
    else none
  else if s.sub = .delay then
    if s.job.state = .delayed then some s
    else some { s with job := afterRelease s.job e reason forceBury, ends := s.ends + 1 }
  else if s.sub = .run then some { s with job := afterRelease s.job e reason forceBury, sub := .delay, ends := s.ends + 1 }
  else none

/-- a request about the job -/
inductive Req where
  | start (pid : Int) (now : Nat)
  | release (e : Jes) (reason : String)
  | bury (e : Jes) (reason : String)
  | archive (e : Jes)
  deriving DecidableEq, Repr

/-- serverCLI.go:753-770 `getij`: the error, if any -/
def getij (s : Srv) (checkRunning : Bool) : Ans :=
  if s.sub = .gone ∨ (checkRunning = true ∧ s.sub ≠ .run) then .badJob
  else if s.mine then .ok else .mustReserve

/-- serverCLI.go:274-304, 344-424: the server handles a request -/
def serve (s : Srv) : Req → Srv × Ans
  | .start pid now =>
    if getij s true = .ok then
      if pid ≤ 0 then (s, .badRequest)
      else ({ s with job := { s.job with pid := pid, startT := now, endT := 0, attempts := s.job.attempts + 1, state := .running } }, .ok)
    else (s, getij s true)
  | .release e reason =>
    if getij s false = .ok then
      match releaseJob s e reason false with
      | some s' => (s', .ok)
      | none => (s, .internal)
    else (s, getij s false)
  | .bury e reason =>
    if getij s false = .ok then
      match releaseJob s e reason true with
      | some s' => (s', .ok)
      | none => (s, .internal)
    else (s, getij s false)
  | .archive e =>
    if getij s true = .ok then
      let j := updateAfterExit s.job e
      if !j.exited || j.code ≠ 0 || j.startT = 0 || j.endT = 0 then ({ s with job := j }, .badRequest)
      else ({ s with job := { j with state := .complete, reason := "" }, sub := .gone, ends := s.ends + 1 }, .ok)
    else (s, getij s true)

/-- client.go:1661-1680 `ended` -/
def ended (j : Job) (e : Jes) : Job :=
  if e.exited then
    { j with exited := true, code := e.code, ram := e.ram, disk := e.disk, cpu := e.cpu, endT := e.endT,
             cwd := if e.cwd = "" then j.cwd else e.cwd }
  else j

/-- what `Started`, `Release`, `Bury` and `Archive` do to the client's copy before they ask the server (client.go:1611-1618, 1719,
1752). `now` is the client's clock. -/
def before (j : Job) (now : Nat) : Req → Job
  | .start pid _ => { j with pid := pid, attempts := j.attempts + 1, startT := now }
  | .release _ reason => { j with reason := reason }
  | .bury _ reason => { j with reason := reason }
  | .archive _ => j

/-- and once it answered without an error (client.go:1696-1697, 1726-1737, 1767-1768) -/
def after (j : Job) : Req → Job
  | .start _ _ => j
  | .release e _ =>
    let j := ended j e
    let j := if j.exited ∧ j.code ≠ 0 then { j with untilBuried := dec8 j.untilBuried } else j
    { j with state := if j.untilBuried = 0 then .buried else .delayed }
  | .bury e _ => { ended j e with state := .buried }
  | .archive e => { ended j e with state := .complete }

/-- client and server -/
structure Sys where
  srv : Srv
  cl : Job
  deriving DecidableEq, Repr

/-- a call of the client, answered; the result is the answer (client.go:2031-2069 `request`) -/
def call (y : Sys) (now : Nat) (r : Req) : Sys × Ans :=
  let cl := before y.cl now r
  let (srv, a) := serve y.srv r
  if a = .ok then (⟨srv, after cl r⟩, a) else (⟨srv, cl⟩, a)

/-- a call whose answer gets lost: the server has carried out the request, the client gets an error -/
def callLost (y : Sys) (now : Nat) (r : Req) : Sys := ⟨(serve y.srv r).1, before y.cl now r⟩

/-- serverCLI.go:233-266, 797-862: a client reserves a job; the server's copy has a fresh run, and the client gets a copy with the
state that follows from the sub-queue (`Lost` is false) -/
def reserve (j : Job) (retries : Nat) : Sys :=
  let j' := { j with exited := false, pid := 0, startT := 0, endT := 0, ram := 0, disk := 0, code := -1 }
  ⟨⟨j', .run, true, retries, 0⟩, { j' with state := .reserved }⟩

/-- serverCLI.go:797-862 `itemToJob`: the state that the server shows for the job; that of an archived job is the recorded one -/
def shown (s : Srv) : State :=
  match s.sub with
  | .run => if s.job.startT = 0 then .reserved else .running
  | .delay => .delayed
  | .bury => .buried
  | .ready => .ready
  | .gone => s.job.state

/-- what others do to the job meanwhile -/
inductive Other where
  /-- its delay is over (queue.go:1221-1286) -/
  | delayOver
  /-- another client reserves it (serverCLI.go:191-273) -/
  | reserved
  /-- a user retries it (server.go:2314-2338) -/
  | kicked
  /-- a user removes it (server.go:2201-2264; not while it runs) -/
  | removed
  /-- it was lost and a user confirms that it is dead (server.go:2177-2195) -/
  | dead
  deriving DecidableEq, Repr

/-- the server after such an event; nothing happens if the job is not in the sub-queue needed -/
def other (s : Srv) : Other → Srv
  | .delayOver => if s.sub = .delay then { s with sub := .ready } else s
  | .reserved => if s.sub = .ready then { s with sub := .run, mine := false, job := (reserve s.job s.retries).srv.job, ends := 0 } else s
  | .kicked => if s.sub = .bury then { s with sub := .ready, job := { s.job with untilBuried := (s.retries + 1) % 256, state := .ready } } else s
  | .removed => if s.sub = .run then s else { s with sub := .gone }
  | .dead => if s.sub = .run then (releaseJob s { exited := true, code := -1 } "lost" false).getD s else s

/-- an attempt of `Execute` to tell the server (client.go:1454-1511): it does not reach it; it does, and hears the answer; or it does
and does not hear it -/
inductive Attempt where
  | unreached | heard | lost
  deriving DecidableEq, Repr

/-- how the loop ended: the server said that all is well, there was an error that is final, or the time for retries was over -/
inductive Result where
  | worked | refused | timeOver
  deriving DecidableEq, Repr

/-- client.go:1454-1511: the loop of `Execute`. Before each attempt others act. The end of the list is the end of the time. ErrBadJob and ErrBadRequest
are final (1504). -/
def loop (y : Sys) (r : Req) : List (List Other × Attempt) → Sys × Result
  | [] => (y, .timeOver)
  | (os, t) :: rest =>
    let y := { y with srv := os.foldl other y.srv }
    match t with
    | .unreached => loop { y with cl := before y.cl 0 r } r rest
    | .lost => loop (callLost y 0 r) r rest
    | .heard =>
      match (call y 0 r).2 with
      | .ok => ((call y 0 r).1, .worked)
      | .badJob => ((call y 0 r).1, .refused)
      | .badRequest => ((call y 0 r).1, .refused)
      | _ => loop (call y 0 r).1 r rest

end Verif.Client.Report
