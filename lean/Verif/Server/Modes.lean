/-!
# Model of the manager's modes: started, paused, draining, stopped

`/repo/jobqueue/server.go` `Drain`, `Pause`, `Resume`, `shutdown` and the requests of
`/repo/jobqueue/serverCLI.go` that use them. Each of these methods holds `ssmutex` for the
whole of its effect, so each is one step. `handleRequest` for "pause" and "jmod" makes two such
steps with the lock released in between: these are separate labels in `Req`.
-/

namespace Verif.Server

/-- server.go:85-87 `ServerModeNormal`, `ServerModePause`, `ServerModeDrain`. -/
inductive Mode where
  | normal | pause | drain
  deriving DecidableEq, Repr

/-- The errors these calls return (server.go:1055, 1096, 1119). -/
inductive MErr where
  | noServer | beingDrained
  deriving DecidableEq, Repr

/-- server.go:340-360: the fields `up`, `drain`, `ServerInfo.Mode`, `pauseRequests`. The Go
counter is a machine int; here it is unbounded. -/
structure MSt where
  up : Bool := true
  drain : Bool := false
  mode : Mode := .normal
  pauses : Int := 0
  deriving DecidableEq, Repr

/-- server.go:1051-1084 `Drain`. The goroutine that calls `Stop` once nothing is running is the
separate step `stop`. -/
def drain (s : MSt) : MSt × Except MErr Unit :=
  if !s.up then (s, .error .noServer)
  else if s.drain && s.mode = .drain then (s, .ok ())
  else ({ s with drain := true, mode := .drain }, .ok ())

/-- server.go:1088-1103 `Pause`. -/
def pause (s : MSt) : MSt × Except MErr Bool :=
  if !s.up then (s, .error .noServer)
  else if s.drain && s.mode = .drain then (s, .error .beingDrained)
  else ({ s with drain := true, mode := .pause, pauses := s.pauses + 1 },
        .ok (s.pauses + 1 = 1))

/-- server.go:1109-1131 `Resume`. The ready-added callback it triggers is not part of this
model. -/
def resume (s : MSt) : MSt × Except MErr Bool :=
  if !s.up then (s, .error .noServer)
  else if !s.drain then (s, .ok false)
  else if s.mode = .drain then (s, .error .beingDrained)
  else if s.pauses - 1 > 0 then ({ s with pauses := s.pauses - 1 }, .ok false)
  else ({ s with drain := false, mode := .normal,
                 pauses := if s.pauses - 1 < 0 then 0 else s.pauses - 1 }, .ok true)

/-- server.go:3136-3158 `shutdown`, as far as it concerns the mode (the reset of `drain` at
3274, at the very end of the shutdown, when no request is answered any more, is left out). -/
def stop (s : MSt) : MSt :=
  if !s.up then s else { s with up := false, drain := true, mode := .drain }

/-- serverCLI.go:50-54, 191-196: a reserve request looks for a job only if `drain` was false
when the request was begun; it is answered at all only if the server is up or draining
(serverCLI.go:62). -/
def open' (s : MSt) : Bool := s.up && !s.drain

/-- The calls of the API. -/
inductive MOp where
  | drain | pause | resume | stop
  deriving DecidableEq, Repr

/-- What a call returned. -/
inductive MRes where
  | done | flag (b : Bool) | err (e : MErr)
  deriving DecidableEq, Repr

/-- The result of `Drain`. -/
def ofUnit : Except MErr Unit → MRes
  | .ok _ => .done
  | .error e => .err e

/-- The result of `Pause` and `Resume`. -/
def ofBool : Except MErr Bool → MRes
  | .ok b => .flag b
  | .error e => .err e

/-- One call. -/
def mstep (s : MSt) : MOp → MSt × MRes
  | .drain => ((drain s).1, ofUnit (drain s).2)
  | .pause => ((pause s).1, ofBool (pause s).2)
  | .resume => ((resume s).1, ofBool (resume s).2)
  | .stop => (stop s, .done)

/-- A sequence of calls and what they returned. -/
def mrun (s : MSt) : List MOp → MSt × List MRes
  | [] => (s, [])
  | o :: os => ((mrun (mstep s o).1 os).1, (mstep s o).2 :: (mrun (mstep s o).1 os).2)

/-! ## The requests of clients -/

/-- The server with the requests that are in progress. -/
structure RSt where
  m : MSt := {}
  /-- "pause" requests between their `Pause()` and the `Resume()` that undoes it -/
  undo : Nat := 0
  /-- "jmod" requests between their `Pause()` and their `Resume()` -/
  mods : Nat := 0
  /-- "reserve" requests that found `drain` false and have not reserved yet -/
  resv : Nat := 0
  /-- the number of jobs handed out -/
  out : Nat := 0
  deriving DecidableEq, Repr

/-- The steps of client requests. -/
inductive Req where
  | pause | pauseUndo | resume | drain | modBegin | modEnd | reserveBegin | reserveEnd
  deriving DecidableEq, Repr

/-- serverCLI.go:88-126 ("pause", "resume"), 127-137 ("drain"), 470-600 ("jmod": `Pause` at 480,
`Resume` at 592), 191-271 ("reserve": `drain` is read at 54 and the job is taken at 224, after
possibly waiting). `none` means the step is not possible in that state. -/
def rstep (s : RSt) : Req → Option RSt
  | .pause =>
    match pause s.m with
    | (m, .ok false) => some { s with m := m, undo := s.undo + 1 }
    | (m, _) => some { s with m := m }
  | .pauseUndo =>
    if s.undo = 0 then none else some { s with m := (resume s.m).1, undo := s.undo - 1 }
  | .resume => some { s with m := (resume s.m).1 }
  | .drain => some { s with m := (drain s.m).1 }
  | .modBegin =>
    match pause s.m with
    | (m, .ok _) => some { s with m := m, mods := s.mods + 1 }
    | (m, _) => some { s with m := m }
  | .modEnd =>
    if s.mods = 0 then none else some { s with m := (resume s.m).1, mods := s.mods - 1 }
  | .reserveBegin => if open' s.m then some { s with resv := s.resv + 1 } else some s
  | .reserveEnd =>
    if s.resv = 0 then none else some { s with resv := s.resv - 1, out := s.out + 1 }

/-- A history of steps of requests. -/
def rrun (s : RSt) : List Req → Option RSt
  | [] => some s
  | r :: rs => (rstep s r).bind fun s' => rrun s' rs

end Verif.Server
