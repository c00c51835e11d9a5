/-!
# The gate before Reserve (jobqueue/server.go:370-381 and its uses)

A client's request for a job waits while new or changed jobs are being looked at: `racPending` is set before jobs are put in the
queue, `racRunning` while the ready-added callback runs, and the requests in `waitingReserves` go on when one of the callbacks
says so. Each section protected by `rpmutex` is one step, as is each operation of the queue; the calls of the callbacks are counted
from the operation that makes them until they run. That each call of `readyAdded` leads to a run that starts after it is C12.

Simplifications: the ready-added callback is entered and left, what it does is elsewhere (`Verif.Server.Learn`, `Verif.Server.Sgroup`). Shutdown,
which lets all waiting requests go on, is left out. What becomes of a request after the gate is in `Verif.Server.Life`.
-/
namespace Verif.Server.Gate

/-- where a request that sets `racPending` is -/
inductive Phase
  /-- server.go:1989-2002 `updateJobDependencies`, that many jobs to go -/
  | updating (n : Nat)
  /-- server.go:1927-1933, between the two calls -/
  | between
  /-- server.go:1845 `enqueueItems`, before the end of `AddMany` -/
  | adding
  /-- server.go:2320 `kickJobs`, before the end of `Kick` -/
  | kicking
  deriving DecidableEq, Repr

/-- `racPending`, `racRunning`, `waitingReserves`, `drain`; the requests under way; calls of the ready-added callback to come, and whether it
runs; calls of the changed callback for another sub-queue than ready to come; and the clients' requests that got past the gate -/
structure St where
  pending : Bool := false
  running : Bool := false
  waiting : List Nat := []
  drain : Bool := false
  threads : List Phase := []
  racs : Nat := 0
  inRac : Bool := false
  changes : Nat := 0
  passed : List Nat := []
  deriving DecidableEq, Repr

inductive Op
  /-- serverCLI.go:191-210: a client asks for a job -/
  | reserve (client : Nat)
  /-- server.go:1985-1988: a request to add jobs, with that many to update -/
  | addBegin (n : Nat)
  /-- server.go:1997: one `q.Update`; whether an item becomes ready, and whether one moves elsewhere -/
  | update (t : Nat) (rac change : Bool)
  /-- server.go:1998-2001: `q.Update` fails, and the request ends -/
  | updateFails (t : Nat)
  /-- server.go:1841-1844 -/
  | enqueueBegin (t : Nat)
  /-- server.go:1845: `AddMany` succeeds; whether there are new ready items, and other new items -/
  | added (t : Nat) (rac change : Bool)
  /-- server.go:1846-1850: `AddMany` fails -/
  | addFails (t : Nat)
  /-- server.go:2316-2318 -/
  | kickBegin
  /-- server.go:2319: `Kick` makes an item ready, or dependent -/
  | kicked (t : Nat) (ready : Bool)
  /-- server.go:2330-2332: `Kick` fails -/
  | kickFails (t : Nat)
  /-- any other operation of the queue, `TriggerReadyAddedCallback` too -/
  | other (rac change : Bool)
  /-- server.go:1290-1305: the callback is entered; that many calls lead to later runs -/
  | racStart (left : Nat)
  /-- server.go:1306-1315 -/
  | racEnd
  /-- server.go:1624-1637 -/
  | changed
  /-- server.go:1088-1103 -/
  | pause
  /-- server.go:1127-1130 -/
  | resume
  deriving DecidableEq, Repr

def b2n (b : Bool) : Nat := if b then 1 else 0

/-- the effects of an operation of the queue -/
def effects (rac change : Bool) (s : St) : St := { s with racs := s.racs + b2n rac, changes := s.changes + b2n change }

/-- `close(ch)` for all waiting requests -/
def release (s : St) : St := { s with waiting := [], passed := s.passed ++ s.waiting }

/-- One step; `none` if it is not possible -/
def step (s : St) : Op → Option St
  | .reserve c =>
    if s.drain then some { s with passed := s.passed ++ [c] }
    else if s.pending || s.running then some { s with waiting := s.waiting ++ [c] } else some { s with passed := s.passed ++ [c] }
  | .addBegin n => some { s with pending := true, threads := s.threads ++ [if n = 0 then .between else .updating n] }
  | .update t rac change =>
    match s.threads[t]? with
    | some (.updating n) =>
      some (effects rac change { s with threads := s.threads.set t (if n ≤ 1 then .between else .updating (n - 1)) })
    | _ => none
  | .updateFails t =>
    match s.threads[t]? with
    | some (.updating _) => some { s with threads := s.threads.eraseIdx t }
    | _ => none
  | .enqueueBegin t =>
    match s.threads[t]? with
    | some .between => some { s with pending := true, threads := s.threads.set t .adding }
    | _ => none
  | .added t rac change =>
    match s.threads[t]? with
    | some .adding => some (effects rac change { s with threads := s.threads.eraseIdx t })
    | _ => none
  | .addFails t =>
    match s.threads[t]? with
    | some .adding => some { s with pending := false, threads := s.threads.eraseIdx t }
    | _ => none
  | .kickBegin => some { s with pending := true, threads := s.threads ++ [.kicking] }
  | .kicked t ready =>
    match s.threads[t]? with
    | some .kicking => some (effects ready (!ready) { s with threads := s.threads.eraseIdx t })
    | _ => none
  | .kickFails t =>
    match s.threads[t]? with
    | some .kicking => some { s with pending := false, threads := s.threads.eraseIdx t }
    | _ => none
  | .other rac change => some (effects rac change s)
  | .racStart left =>
    if s.inRac || s.racs ≤ left then none
    else if s.drain then some { s with racs := left }
    else some { s with racs := left, inRac := true, running := true }
  | .racEnd => if s.inRac then some { release s with pending := false, running := false, inRac := false } else none
  | .changed =>
    if s.changes = 0 then none
    else if s.pending then some { release s with pending := false, changes := s.changes - 1 } else some { s with changes := s.changes - 1 }
  | .pause => some { s with drain := true }
  | .resume => if s.drain then some { s with drain := false, racs := s.racs + 1 } else some s

def run (s : St) : List Op → Option St
  | [] => some s
  | op :: ops => match step s op with
    | some s' => run s' ops
    | none => none

end Verif.Server.Gate
