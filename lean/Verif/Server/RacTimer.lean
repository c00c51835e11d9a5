/-!
# Model of the repeated check for ready jobs (`/repo/jobqueue/server.go:1289-1296, 1577-1618`, `/repo/queue/queue.go:265-312`)

When jobs become ready the queue runs the server's ready added callback, one run at a time.  At its end the callback makes
a timer with a checker goroutine, or sets the timer back if there is one; the checker runs the callback again if jobs are
ready when the timer fires.  Steps are delimited by the locks and by the receive from the timer's channel.

Simplifications: there is a runner command (`rc` is not empty); what the callback does with the jobs (server.go:1317-1575)
is one step; the readers of `racmutex` only hold it for an assignment and are left out; a timer's channel has the
semantics of Go 1.23 (`go.mod` says 1.23.5): `Stop` returns true if the timer's value has not been received, and there is
nothing to receive after it.
-/

namespace Verif.Server.RacTimer

/-- Where the callback is. -/
inductive Cb
  /-- not running: `readyAddedCbRunning` is false -/
  | idle
  /-- to look at the server's mode (server.go:1295-1300) -/
  | start
  /-- to count jobs and schedule runners (server.go:1302-1576) -/
  | body
  /-- to lock racmutex (server.go:1582) -/
  | lock
  /-- holds racmutex, to call Stop (server.go:1585) -/
  | stop
  /-- holds racmutex, receives from the channel (server.go:1586) -/
  | receive
  /-- returned (queue.go:289) -/
  | done
  /-- waits before it is called again (queue.go:299-306) -/
  | again
deriving DecidableEq, Repr

/-- Where a checker is. -/
inductive Chk
  /-- in the select (server.go:1597-1602) -/
  | select
  /-- received from the channel, to lock racmutex (server.go:1604) -/
  | fired
  /-- saw ready jobs, to call TriggerReadyAddedCallback (server.go:1610) -/
  | trigger
  /-- returned -/
  | gone
deriving DecidableEq, Repr

/-- The timer: not there, or nothing to come from it; running; its time has come and nobody has received. -/
inductive Timer
  | off
  | armed
  | expired
deriving DecidableEq, Repr

/-- The state. -/
structure St where
  cb : Cb := .idle
  /-- readyAddedCbRecall -/
  recall : Bool := false
  chks : List Chk := []
  timer : Timer := .off
  /-- racChecking -/
  checking : Bool := false
  /-- racmutex is locked -/
  locked : Bool := false
  /-- how many jobs are ready -/
  ready : Nat := 0
  /-- goroutines that made jobs ready and are about to call readyAdded -/
  calls : Nat := 0
  /-- paused or drained -/
  drain : Bool := false
  /-- stopClientHandling is closed -/
  stopped : Bool := false
  /-- how often the callback scheduled runners -/
  runs : Nat := 0
deriving DecidableEq, Repr

/-- What can happen next. -/
inductive Ev
  /-- a job becomes ready; readyAdded will be called (queue.go:472, 605, 794, 1043, 1125, 1202, 1265, 1357) -/
  | push
  /-- a ready job is reserved, removed, … -/
  | pop
  /-- a goroutine calls readyAdded -/
  | call
  /-- the callback goes on -/
  | cb
  /-- the time of the timer comes -/
  | expire
  /-- a checker goes on -/
  | chk (i : Nat)
  /-- Pause, Drain (server.go:1051-1103) -/
  | pause
  /-- Resume (server.go:1109-1131) -/
  | resume
  /-- the server stops -/
  | stop
deriving DecidableEq, Repr

/-- queue.go:265-274 readyAdded -/
def readyAdded (s : St) : St := if s.cb = .idle then { s with cb := .start } else { s with recall := true }

/-- server.go:1289-1300, 1577-1617 and queue.go:289-309: the next step of the callback -/
def cbStep (s : St) : St :=
  match s.cb with
  | .idle => s
  | .start => if s.drain || s.stopped then { s with cb := .done } else { s with cb := .body }
  | .body => { s with cb := .lock, runs := s.runs + 1 }
  | .lock =>
    if s.locked then s
    else if s.checking then { s with locked := true, cb := .stop }
    else { s with timer := .armed, chks := s.chks ++ [.select], checking := true, cb := .done }
  | .stop =>
    if s.timer = .off then { s with cb := .receive } else { s with timer := .armed, locked := false, cb := .done }
  | .receive => if s.timer = .expired then { s with timer := .armed, locked := false, cb := .done } else s
  | .done => if s.recall then { s with cb := .again } else { s with cb := .idle }
  | .again => { s with cb := .idle, recall := false, calls := s.calls + 1 }

/-- server.go:1593-1614: the next step of a checker -/
def chkStep (s : St) (i : Nat) : St :=
  match s.chks[i]? with
  | some .select =>
    if s.stopped then { s with chks := s.chks.set i .gone }
    else if s.timer = .expired then { s with timer := .off, chks := s.chks.set i .fired }
    else s
  | some .fired =>
    if s.locked then s
    else { s with checking := false, chks := s.chks.set i (if s.ready > 0 then .trigger else .gone) }
  | some .trigger => readyAdded { s with chks := s.chks.set i .gone }
  | _ => s

/-- One step. -/
def step (s : St) : Ev → St
  | .push => { s with ready := s.ready + 1, calls := s.calls + 1 }
  | .pop => { s with ready := s.ready - 1 }
  | .call => if s.calls > 0 then readyAdded { s with calls := s.calls - 1 } else s
  | .cb => cbStep s
  | .expire => if s.timer = .armed then { s with timer := .expired } else s
  | .chk i => chkStep s i
  | .pause => { s with drain := true }
  | .resume => if s.drain then readyAdded { s with drain := false } else s
  | .stop => { s with stopped := true }

/-- Any number of steps. -/
def run (s : St) : List Ev → St
  | [] => s
  | e :: es => run (step s e) es

end Verif.Server.RacTimer
