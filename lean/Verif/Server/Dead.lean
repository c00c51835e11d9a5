/-
Finding out that a job is dead: what happens to a running job whose runner is not heard of (jobqueue/server.go:1777-1836), the check
that its process is gone (server.go:2006-2073, jobqueue/scheduler/scheduler.go:396-413), the killing of such jobs (server.go:2077-2145,
2177-2195), and what runners and users do meanwhile (jobqueue/serverCLI.go:191-424, 602-623, jobqueue/serverWebI.go:467-510).

One job (the requests and checks of others do not touch it). Each request of a client is one step, and so is each part of a check between
two points at which it waits. Simplifications: the database and the limits are left out; releaseJob and jtouch are one step; the time for
which a job is delayed is not counted, nor is the time until it is checked again; runners have different client ids.
-/
namespace Verif.Server.Dead

/-- where the job is in the queue; `gone` is not in it -/
inductive Sub where
  | ready
  | delay
  | run
  | bury
  | gone
deriving DecidableEq, Repr

/-- `Job.State` -/
inductive St where
  | ready
  | reserved
  | running
  | lost
  | delayed
  | buried
  | complete
deriving DecidableEq, Repr

/-- a reservation of the job by a runner: the host and pid of the command it started, whether that is alive, and whether the runner is
done with the job. This is about the world, the server does not know it. -/
structure Client where
  proc : Option (Nat × Nat) := none
  alive : Bool := false
  ended : Bool := false
deriving DecidableEq, Repr

/-- goroutines of the server about this job. The `run`s are not in the code: the reservation that it is about. -/
inductive Thread where
  /-- about to look for the process (server.go:2014) -/
  | check (run host pid : Nat)
  /-- about to call killJob (server.go:2021) -/
  | kill (run : Nat)
  /-- about to trigger behaviours (server.go:2025) -/
  | behave
  /-- waiting to check again (server.go:2057) -/
  | wait
  /-- about to release the job since it was killed (server.go:1812-1816) -/
  | release (run : Nat)
deriving DecidableEq, Repr

structure S where
  sub : Sub := .ready
  state : St := .ready
  lost : Bool := false
  killCalled : Bool := false
  exited : Bool := false
  /-- `StartTime` is not zero -/
  started : Bool := false
  host : Nat := 0
  pid : Nat := 0
  /-- `UntilBuried` -/
  left : Nat := 1
  retries : Nat := 0
  /-- the job's time to release is not a year from now (queue/queue.go:1318-1322) -/
  armed : Bool := true
  /-- the key is in `recoveredRunningJobs` (server.go:797) -/
  recovered : Bool := false
  /-- the reservation that `ReservedBy` is -/
  cur : Nat := 0
  threads : List Thread := []
  /-- not in the server: all reservations, the ones told to kill their command, and how often the server triggered behaviours -/
  clients : List Client := []
  told : List Nat := []
  behaved : Nat := 0
deriving DecidableEq, Repr

/-- what `ps` over ssh says -/
inductive Obs where
  | there
  | notThere
  | failed
deriving DecidableEq, Repr

inductive Ending where
  | archive
  | release
  | bury
deriving DecidableEq, Repr

inductive Ev where
  /-- a runner reserves the job -/
  | reserve
  /-- the runner of a reservation starts the command -/
  | launch (r host pid : Nat)
  /-- it tells the server so -/
  | start (r : Nat)
  | touch (r : Nat)
  /-- the command of a reservation ends -/
  | exit (r : Nat)
  /-- the runner tells the server how the job ended -/
  | done (r : Nat) (how : Ending)
  /-- the server has not heard of the job for long -/
  | ttr
  /-- a goroutine looks for the process; what it sees -/
  | check (i : Nat) (o : Obs)
  | kill (i : Nat)
  | behave (i : Nat)
  /-- the time to check again has come -/
  | wake (i : Nat)
  | late (i : Nat)
  /-- the user kills the job -/
  | userKill
  /-- the user kills some jobs of the job's group on the web page, not this one (its exit code or fail reason is another) -/
  | view
  /-- the delay is over -/
  | delayOver
  /-- the user retries the buried job -/
  | kick
deriving DecidableEq, Repr

/-- server.go:2077-2145 `releaseJob`, and whether it worked; `ex` is endState.Exited -/
def release (s : S) (ex force : Bool) : S × Bool :=
  let bury := force || (s.started && s.left = 1)
  let after (sub : Sub) : S :=
    let left := if force then 0 else if s.started then (s.left + 255) % 256 else s.left
    { s with sub := sub, exited := s.exited || ex, left := left, state := if left = 0 then .buried else .delayed }
  match s.sub with
  | .gone => (s, false)
  | .run => (after (if bury then .bury else .delay), true)
  | .bury => if bury then (if s.state = .buried then (s, true) else (after .bury, true)) else (s, false)
  | .delay => if bury then (s, false) else if s.state = .delayed then (s, true) else (after .delay, true)
  | .ready => (s, false)

/-- server.go:2177-2195 `killJob`, and whether there was no error -/
def killJob (s : S) : S × Bool :=
  match s.sub with
  | .gone => (s, false)
  | .run => if s.lost then release { s with killCalled := true } true false else ({ s with killCalled := true }, true)
  | _ => (s, true)

/-- a goroutine goes on as another or ends -/
def become (s : S) (i : Nat) (t : Option Thread) : S :=
  { s with threads := match t with | some t => s.threads.set i t | none => s.threads.eraseIdx i }

/-- server.go:1777-1836: the job's time to release has come -/
def ttr (s : S) : S :=
  if s.started && !s.exited then
    { s with
      lost := true
      armed := false
      threads :=
        if s.killCalled then s.threads ++ [.release s.cur]
        else if s.recovered then s.threads
        else s.threads ++ [.check s.cur s.host s.pid] }
  else { s with sub := .delay }

/-- the process is on that host -/
def there (s : S) (host pid : Nat) : Bool := s.clients.any fun c => c.alive && c.proc = some (host, pid)

def step (s : S) : Ev → Option S
  | .reserve => -- serverCLI.go:241-267
    if s.sub = .ready then
      some { s with
        sub := .run, exited := false, pid := 0, host := 0, started := false, armed := true, cur := s.clients.length,
        clients := s.clients ++ [{}] }
    else none
  | .launch r host pid => -- client.go:925
    match s.clients[r]? with
    | some c =>
      if c.proc = none ∧ c.ended = false ∧ 0 < pid ∧ there s host pid = false then
        some { s with clients := s.clients.set r { c with proc := some (host, pid), alive := true } }
      else none
    | none => none
  | .start r => -- serverCLI.go:274-304
    match s.clients[r]? with
    | some c =>
      match c.proc with
      | some (host, pid) =>
        if r = s.cur ∧ s.sub = .run ∧ s.started = false ∧ c.ended = false then
          some { s with host := host, pid := pid, started := true, killCalled := false, lost := false, state := .running }
        else none
      | none => none
    | none => none
  | .touch r => -- serverCLI.go:305-343
    if r = s.cur ∧ s.sub = .run then
      (if s.killCalled then some { s with told := s.told ++ [r] } else some { s with armed := true, lost := false })
    else none
  | .exit r =>
    match s.clients[r]? with
    | some c => if c.alive then some { s with clients := s.clients.set r { c with alive := false } } else none
    | none => none
  | .done r how => -- serverCLI.go:344-424
    match s.clients[r]? with
    | some c =>
      if r = s.cur ∧ s.sub = .run ∧ c.alive = false ∧ c.ended = false then
        let s := { s with clients := s.clients.set r { c with ended := true } }
        (match how with
        | .archive => if s.started then some { s with sub := .gone, state := .complete, exited := true } else none
        | .release => some (release s true false).1
        | .bury => some (release s true true).1)
      else none
    | none => none
  | .ttr => if s.sub = .run ∧ s.armed = true then some (ttr s) else none
  | .check i o => -- server.go:2012-2018, 2043-2053
    match s.threads[i]? with
    | some (.check r host pid) =>
      if o = .notThere ∧ there s host pid = true then none
      else if pid = 0 ∨ o ≠ .notThere then some (become s i (some .wait))
      else some (become s i (some (.kill r)))
    | _ => none
  | .kill i => -- server.go:2020-2023
    match s.threads[i]? with
    | some (.kill _) =>
      let (s, ok) := killJob s
      some (become s i (if ok then some .behave else none))
    | _ => none
  | .behave i => -- server.go:2025-2035
    match s.threads[i]? with
    | some .behave => some (become { s with behaved := if s.sub = .gone then s.behaved else s.behaved + 1 } i none)
    | _ => none
  | .wake i => -- server.go:2055-2073
    match s.threads[i]? with
    | some .wait =>
      some (become s i (if s.sub = .run ∧ s.state = .running ∧ s.lost = true then some (.check s.cur s.host s.pid) else none))
    | _ => none
  | .late i => -- server.go:1810-1818
    match s.threads[i]? with
    | some (.release _) => some (become (release s true false).1 i none)
    | _ => none
  | .userKill => some (killJob s).1 -- serverCLI.go:602-623
  | .view => -- serverWebI.go:467-510
    if s.sub = .run then some { s with state := if s.lost then .lost else .reserved } else none
  | .delayOver => if s.sub = .delay then some { s with sub := .ready } else none
  | .kick => -- server.go:2314-2338
    if s.sub = .bury then some { s with sub := .ready, state := .ready, left := s.retries + 1 } else none

def run (s : S) : List Ev → Option S
  | [] => some s
  | e :: es => (step s e).bind fun s => run s es

/-- a job that was added -/
def added (retries : Nat) : S := { left := retries + 1, retries := retries }

/-- a job that was running when the server started (server.go:780-797) -/
def recovered (retries left host pid : Nat) : S :=
  { sub := .run, state := .running, started := true, host := host, pid := pid, left := left, retries := retries, recovered := true,
    clients := [{ proc := some (host, pid), alive := true }] }

end Verif.Server.Dead
