/-!
# Model of the bookkeeping of scheduler groups (`/repo/jobqueue/server.go:262-332, 2909-2939`)

`sgroup.decrement` holds the group's lock, so it is one step. `decrementGroupCount` decrements,
then makes a clone and gives its count to the scheduler, without holding a lock in between: these
are two steps of the same request in `GOp`.
-/

namespace Verif.Server.Sgroup

/-- server.go:263-270 `sgroup`: how many runners are needed, and how many ready jobs were left
out because of limits. -/
structure Group where
  count : Int
  skipped : Int
  deriving DecidableEq, Repr

/-- server.go:299-325 `decrement`: the new group and the returned value. -/
def decrement (g : Group) (drop : Int) : Group × Int :=
  if drop < 1 then (g, -1)
  else if g.skipped > 0 ∧ drop ≤ g.skipped then ({ g with skipped := g.skipped - drop }, -1)
  else
    let d := if g.skipped > 0 then drop - g.skipped else drop
    let sk := if g.skipped > 0 then 0 else g.skipped
    let c := if g.count - d < 0 then 0 else g.count - d
    ({ count := c, skipped := sk }, if c = g.count then -1 else c)

/-- A sequence of calls: the group after it. -/
def decrements (g : Group) : List Int → Group
  | [] => g
  | d :: ds => decrements (decrement g d).1 ds

/-! ## The count given to the scheduler -/

/-- The group, the count last given to `Schedule`, and the counts that requests are about to give
to it. -/
structure GSt where
  g : Group
  told : Int
  inFlight : List Int := []
  deriving DecidableEq, Repr

/-- The two steps of `decrementGroupCount`. `tell i`: the `i`th request in flight calls
`scheduleRunners`. -/
inductive GOp where
  | drop (n : Int) | tell (i : Nat)
  deriving DecidableEq, Repr

/-- server.go:2909-2939 `decrementGroupCount`. -/
def gstep (s : GSt) : GOp → GSt
  | .drop n =>
    let r := decrement s.g n
    { s with g := r.1, inFlight := if r.2 ≥ 0 then s.inFlight ++ [r.2] else s.inFlight }
  | .tell i =>
    match s.inFlight[i]? with
    | none => s
    | some c => { s with told := c, inFlight := s.inFlight.eraseIdx i }

def grun (s : GSt) : List GOp → GSt
  | [] => s
  | o :: os => grun (gstep s o) os

end Verif.Server.Sgroup
