import Verif.Queue.Model
/-!
What an item tells of itself (item.go:74-92 `ItemStats`, 129-156 `Stats`, 168-183 `ReleaseAt` and `ReadyAt`), and histories with the events of each step.
-/
namespace Verif.Queue

/-- item.go:79-92 `ItemStats`; `uint32` and `uint8` counters are naturals. -/
structure ItemStats where
  state : State
  age : Int
  remaining : Int
  delay : Int
  ttr : Int
  reserves : Nat
  timeouts : Nat
  releases : Nat
  buries : Nat
  kicks : Nat
  priority : Nat
  size : Nat
  deriving DecidableEq, Repr

/-- item.go:129-156 `Stats`, at clock reading `now`. `time.Until` of a zero time is not wanted by any state that is met (`C140_times`); it is a
    duration before the start of the clock, here 0 - now. -/
def Item.stats (it : Item) (now : Int) : ItemStats :=
  { state := it.state, age := now - it.creation,
    remaining := match it.state with
      | .delay => it.readyAt.getD 0 - now
      | .run => it.releaseAt.getD 0 - now
      | _ => 0,
    delay := it.delay, ttr := it.ttr, reserves := it.reserves, timeouts := it.timeouts, releases := it.releases, buries := it.buries,
    kicks := it.kicks, priority := it.priority, size := it.size }

/-- What happened: when, which operation, and one call of the changed callback (queue.go:324-333) -/
structure Happened where
  now : Int
  op : Op
  ev : Ev

/-- Run a history of steps, and note what happened. -/
def traceFrom : Q → List (Int × Op) → Option (Q × List Happened)
  | q, [] => some (q, [])
  | q, (now, op) :: rest =>
    match step q now op with
    | none => none
    | some o => (traceFrom o.q rest).map fun r => (r.1, o.evs.map (fun e => ⟨now, op, e⟩) ++ r.2)

end Verif.Queue
