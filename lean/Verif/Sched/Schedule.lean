/-!
# Scheduler.Schedule (jobqueue/scheduler/scheduler.go:294-328)

Concurrent calls of `Schedule` for any commands. A call is a thread that takes the scheduler's lock, then runs
`impl.schedule`, then takes the lock again; the steps of different threads interleave in any way.

Simplifications: the requirements and the priority of a call are left out (the map `limiter` is keyed by the command
alone); `impl.schedule` takes effect, as a whole, at some moment between its start and its end, and does not fail.
-/
namespace Verif.Sched

/-- What the scheduler holds for one command, and the threads that work on it. `limiter` is the entry of the map
`s.limiter` (scheduler.go:227, 301-306); `running` are the threads inside `impl.schedule` with the count they were
called with and whether it has taken effect; `recalls` are the goroutines started at scheduler.go:313-320 that did not
yet take the lock. `inForce` is the count most recently put into effect by `impl.schedule`. `last` is a ghost: the
count of the last call made by a user. -/
structure Cmd where
  limiter : Option Int := none
  running : List (Int × Bool) := []
  recalls : List Int := []
  inForce : Option Int := none
  last : Option Int := none
  deriving DecidableEq, Repr

/-- scheduler.go:300-308, the first critical section of `Schedule`. -/
def enter (c : Cmd) (count : Int) : Cmd :=
  match c.limiter with
  | some _ => { c with limiter := some count }
  | none => { c with limiter := some count, running := c.running ++ [(count, false)] }

/-- What can happen next for a command. `effect i` and `leave i` are steps of the `i`-th thread in `impl.schedule`,
`recall i` is the first step of the `i`-th goroutine started by an earlier call. -/
inductive Ev where
  | call (count : Int)
  | effect (i : Nat)
  | leave (i : Nat)
  | recall (i : Nat)
  deriving DecidableEq, Repr

/-- One step; `none` if no such thread is there to make it. -/
def step (c : Cmd) : Ev → Option Cmd
  -- scheduler.go:294-308
  | .call n => some { enter c n with last := some n }
  -- scheduler.go:310 impl.schedule sets the count
  | .effect i => match c.running[i]? with
    | some (n, false) => some { c with running := c.running.set i (n, true), inForce := some n }
    | _ => none
  -- scheduler.go:312-325, the second critical section
  | .leave i => match c.running[i]? with
    | some (n, true) =>
      let c' := { c with running := c.running.eraseIdx i }
      match c.limiter with
      | some new => some { c' with limiter := none, recalls := if new ≠ n then c.recalls ++ [new] else c.recalls }
      | none => some c'
    | _ => none
  -- scheduler.go:314-317, the goroutine calls Schedule
  | .recall i => match c.recalls[i]? with
    | some n => some (enter { c with recalls := c.recalls.eraseIdx i } n)
    | none => none

/-- All commands. -/
abbrev Sys := String → Cmd

/-- a step of the system is one of some command -/
def sysStep (s : Sys) (cmd : String) (e : Ev) : Option Sys :=
  (step (s cmd) e).map fun c x => if x = cmd then c else s x

/-- a history -/
def sysRun (s : Sys) : List (String × Ev) → Option Sys
  | [] => some s
  | (cmd, e) :: h => (sysStep s cmd e).bind fun s' => sysRun s' h

/-- scheduler.go:224-233 `New`: nothing has been scheduled -/
def sysInit : Sys := fun _ => {}

end Verif.Sched
