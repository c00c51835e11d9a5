/-!
# Model of the loop of `wr runner` (`/repo/cmd/runner.go:118-123, 165-265`)

What the rest of the world answers during each turn of the loop is a list of turns; the loop makes a list of actions of it. The
environment that is given to the job is modelled in `Utils/JobEnv`, the execution of a job in `Client/Execute`. Times are
integers. The end of the list of turns before the loop ended is a runner that is still running, or was killed.
-/

namespace Verif.Cmd.Runner

/-- A job: which one, and how long it is expected to take. -/
structure Job where
  id : Nat
  time : Int
deriving DecidableEq, Repr

/-- What Reserve returns. -/
inductive Reserved
  | error
  | nothing
  | job (j : Job)
deriving DecidableEq, Repr

/-- What Execute returns. -/
inductive Result
  | ok
  | failed
  /-- FailReasonSignal -/
  | signal
  /-- ErrStopReserving -/
  | reconnected
deriving DecidableEq, Repr

/-- What happens during a turn. -/
structure Turn where
  /-- the time at the top -/
  top : Int
  res : Reserved
  /-- the time when Reserve returned -/
  after : Int
  /-- the environment of the job can be read and changed -/
  env : Bool := true
  result : Result := .ok
deriving DecidableEq, Repr

/-- Why the runner ends. -/
inductive Why
  | time
  | nothing
  | error
  | env
  | signal
  | reconnected
deriving DecidableEq, Repr

/-- What the runner does. -/
inductive Act
  | reserve
  | release (j : Job)
  | execute (j : Job)
  | stop (w : Why)
deriving DecidableEq, Repr

/-- runner.go:179-262: the loop; `endTime` is when it should end, `jobTime` how long the last job was expected to take -/
def loop (endTime : Int) (jobTime : Int) : List Turn → List Act
  | [] => []
  | t :: ts =>
    if t.top + jobTime > endTime then [.stop .time]
    else .reserve ::
      match t.res with
      | .error => [.stop .error]
      | .nothing => [.stop .nothing]
      | .job j =>
        if j.time ≠ jobTime ∧ t.after + j.time > endTime then [.release j, .stop .time]
        else if ¬ t.env then [.release j, .stop .env]
        else .execute j ::
          match t.result with
          | .signal => [.stop .signal]
          | .reconnected => [.stop .reconnected]
          | _ => loop endTime j.time ts

/-- runner.go:166-171: when the runner should end; `start` is now, in seconds, `maxtime` in minutes, `year` the seconds of the
year that follows -/
def endTimeOf (start maxtime year : Int) : Int := if maxtime > 0 then start + maxtime * 60 else start + year

/-- runner.go:165-265 -/
def runner (start maxtime year : Int) (ts : List Turn) : List Act := loop (endTimeOf start maxtime year) 0 ts

/-- runner.go:120-124: how long to wait for an answer of the server, in seconds -/
def timeoutOf (timeout reserve : Int) : Int := if timeout < reserve + 5 then reserve + 5 else timeout

end Verif.Cmd.Runner
