/-
Stopping the manager: jobqueue/server.go:811-839 (signals and the expiry of the certificate), 1032-1084 (Block, Stop, Drain), 3128-3282
(shutdown); the check of a request, serverCLI.go:52-66, and of a touch, serverCLI.go:319-325; the first lines of the ready-added callback,
server.go:1296-1301.

The steps are those of the goroutines between two of which others can run. Simplifications: what is scheduled is one flag for all groups; all
runners are alike; which jobs run and when a runner starts or ends is up to the environment; closing the websockets, the casters and the web
server is left out; the database and the listening sockets always close.
-/
namespace Verif.Server.Stop

/-- server.go:72-75 -/
inductive Reason where
  | int | cert | stop
deriving DecidableEq, Repr

/-- the next thing a call of shutdown does; server.go line numbers -/
inductive Ph where
  /-- 3159: touches are answered with a kill -/
  | kill
  /-- 3163: are there runners? then wait for ClientTouchInterval -/
  | look
  | interval
  /-- 3169-3177: with `wait`, until there are no runners -/
  | runners
  /-- 3180: the scheduler's Cleanup -/
  | cleanup
  /-- 3213-3217 -/
  | sock
  /-- 3220 -/
  | db
  /-- 3236-3266: goroutines, ports, and the queue is gone -/
  | queue
  /-- 3269 -/
  | unkill
  /-- 3273-3277 -/
  | undrain
  /-- 3279-3281 -/
  | tell
  | ended
deriving DecidableEq, Repr

/-- a call of shutdown -/
structure Call where
  wait : Bool
  reason : Reason
  /-- (not in the code) it found the server up -/
  did : Bool
  ph : Ph
deriving DecidableEq, Repr

structure Runner where
  alive : Bool := true
  /-- a touch of it was answered with a kill -/
  told : Bool := false
deriving DecidableEq, Repr

/-- how the process ended before its time -/
inductive How where
  /-- a signal nobody handles -/
  | signal
  /-- `close` of a closed channel -/
  | closed
  /-- a method of a nil queue; the goroutine's LogPanic exits -/
  | nilQueue
deriving DecidableEq, Repr

structure S where
  up : Bool := true
  drain : Bool := false
  killRunners : Bool := false
  blocking : Bool := false
  /-- the channel `done`, of capacity 1 -/
  done : Option Reason := none
  /-- `stopSigHandling` is closed -/
  sigClosed : Bool := false
  /-- signals are sent to the goroutine of 814, which still waits -/
  handled : Bool := true
  queue : Bool := true
  db : Bool := true
  sock : Bool := true
  /-- the scheduler has runners to start -/
  sched : Bool := false
  /-- callbacks that found the server up and not draining, and have not asked the scheduler for runners yet -/
  racs : Nat := 0
  runners : List Runner := []
  /-- jobs in the run sub-queue -/
  running : Nat := 0
  calls : List Call := []
  /-- the goroutine of Drain -/
  drainer : Bool := false
  /-- callers of Block that wait, and what others returned -/
  blocked : Nat := 0
  returned : List Reason := []
  gone : Option How := none
deriving DecidableEq, Repr

inductive Ev where
  /-- Stop (also for the "shutdown" request) -/
  | stop (wait : Bool)
  | signal
  | expire
  /-- the goroutine of 814 sees that `stopSigHandling` is closed -/
  | unhandle
  | drain
  /-- the ticker of Drain -/
  | tick
  | block
  /-- a Block receives from `done` -/
  | unblock
  /-- the next step of the i-th call of shutdown -/
  | go (i : Nat)
  /-- the ready-added callback begins; one that had begun asks the scheduler -/
  | rac
  | racAsks (some : Bool)
  | runnerStarts
  | runnerEnds (i : Nat)
  | touch (i : Nat)
  | jobs (n : Nat)
deriving DecidableEq, Repr

def hasRunners (s : S) : Bool := s.runners.any (·.alive)

/-- server.go:3136-3158 -/
def begin (s : S) (wait : Bool) (r : Reason) (stopSig : Bool) : S :=
  if !s.up then { s with calls := s.calls ++ [⟨wait, r, false, .ended⟩] }
  else if stopSig && s.sigClosed then { s with gone := some .closed }
  else { s with sigClosed := s.sigClosed || stopSig, sched := false, up := false, drain := true,
                calls := s.calls ++ [⟨wait, r, true, .kill⟩] }

/-- the next step of a call, 3159-3281: the new state apart from the call itself, and the next phase; `none`: it has to wait -/
def next (s : S) (c : Call) : Option (S × Ph) :=
  match c.ph with
  | .kill => some ({ s with killRunners := true }, .look)
  | .look => some (s, if hasRunners s then .interval else .runners)
  | .interval => some (s, .runners)
  | .runners => if c.wait && hasRunners s then none else some (s, .cleanup)
  | .cleanup => some ({ s with sched := false }, .sock)
  | .sock => some ({ s with sock := false }, .db)
  | .db => some ({ s with db := false }, .queue)
  | .queue => some ({ s with queue := false }, .unkill)
  | .unkill => some ({ s with killRunners := false }, .undrain)
  | .undrain => some ({ s with drain := false, blocking := false }, if s.blocking then .tell else .ended)
  | .tell => if s.done = none then some ({ s with done := some c.reason }, .ended) else none
  | .ended => none

def setRunner (s : S) (i : Nat) (f : Runner → Runner) : S := { s with runners := s.runners.modify i f }

def step (s : S) (e : Ev) : Option S :=
  if s.gone ≠ none then none else
  match e with
  | .stop w => some (begin s w .stop true)
  | .signal =>
    if s.handled then some (begin { s with handled := false } true .int false)
    else some { s with gone := some .signal }
  | .expire => if s.handled then some (begin { s with handled := false } true .cert false) else none
  | .unhandle => if s.sigClosed && s.handled then some { s with handled := false } else none
  | .drain =>
    -- 1051-1062; that it is done again while it already drains has no effect
    if !s.up || s.drain then some s else some { s with drain := true, drainer := true }
  | .tick =>
    if !s.drainer then none
    else if !s.queue then some { s with gone := some .nilQueue }
    else if s.running > 0 then some s
    else some (begin { s with drainer := false } true .stop true)
  | .block => some { s with blocking := true, blocked := s.blocked + 1 }
  | .unblock =>
    match s.done with
    | some r => if s.blocked = 0 then none else some { s with done := none, blocked := s.blocked - 1, returned := s.returned ++ [r] }
    | none => none
  | .go i =>
    match s.calls[i]? with
    | none => none
    | some c =>
      match next s c with
      | none => none
      | some (s', ph) => some { s' with calls := s.calls.set i { c with ph := ph } }
  | .rac => if s.drain || !s.up then some s else some { s with racs := s.racs + 1 }
  | .racAsks b => if s.racs = 0 then none else some { s with racs := s.racs - 1, sched := s.sched || b }
  | .runnerStarts => if s.sched then some { s with runners := s.runners ++ [{}] } else none
  | .runnerEnds i => some (setRunner s i fun r => { r with alive := false })
  | .touch i =>
    -- requests are read from the socket, and refused when the server just got shut down: serverCLI.go:62
    if s.sock && s.queue && (s.up || s.drain) then some (setRunner s i fun r => { r with told := r.told || (r.alive && s.killRunners) })
    else some s
  | .jobs n => if s.queue then some { s with running := n } else none

def run (s : S) : List Ev → Option S
  | [] => some s
  | e :: es => (step s e).bind fun s => run s es

end Verif.Server.Stop
