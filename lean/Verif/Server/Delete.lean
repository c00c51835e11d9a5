import Verif.Queue.Props
/-!
# Model of deleting jobs

`/repo/jobqueue/serverCLI.go:445-469` (request "jdel"), `/repo/jobqueue/server.go:2201-2264` `deleteJobs` and
`/repo/queue/queue.go:1212-1222` `HasDependents`. The queue is the model of `Verif.Queue`; a job is named by its key.

Left out: the deletion from the live bucket and from the lookup by rep group of the keys removed in each round
(server.go:2233-2251), and the new counts of the scheduler groups (2239-2242), which `Verif.Server.Sgroup` models.
-/
namespace Verif.Server.Delete
open Verif.Queue

/-- queue.go:1212-1222 `HasDependents`; `none` is an error. -/
def hasDependents (q : Q) (key : String) : Option Bool := if q.closed then none else some (mget q.dependants key).isSome

/-- serverCLI.go:450-463: the requested jobs that are in the queue and not running. -/
def select (q : Q) (keys : List String) : List String :=
  keys.filter fun k => match q.find k with
    | none => false
    | some i => (q.store i).state ≠ .run

/-- What a round leaves: the queue, the keys removed, the keys skipped because of dependents. -/
structure Round where
  q : Q
  removed : List String := []
  skipped : List String := []

/-- server.go:2208-2230: one job. The order in which a removal visits the dependants does not matter as there are none. -/
def one (r : Round) (key : String) : Option Round :=
  match hasDependents r.q key with
  | none => some r
  | some true => some { r with skipped := r.skipped ++ [key] }
  | some false =>
    match r.q.remove key [] with
    | none => none
    | some o => if o.res = .ok then some { r with q := o.q, removed := r.removed ++ [key] } else some r

/-- server.go:2208-2230: the loop over the jobs. -/
def round (r : Round) : List String → Option Round
  | [] => some r
  | k :: ks => (one r k).bind fun r' => round r' ks

/-- server.go:2203-2263: the rounds. The number of rounds is bounded by that of jobs, as each but the last removes
one. Returns the queue and the keys of the deleted jobs. -/
def rounds : Nat → Q → List String → List String → Option (Q × List String)
  | 0, q, _, deleted => some (q, deleted)
  | n + 1, q, jobs, deleted =>
    (round { q } jobs).bind fun r =>
      if r.removed ≠ [] ∧ r.skipped ≠ [] then rounds n r.q r.skipped (deleted ++ r.removed)
      else some (r.q, deleted ++ r.removed)

/-- server.go:2201-2264 `deleteJobs`. -/
def deleteJobs (q : Q) (jobs : List String) : Option (Q × List String) := rounds (jobs.length + 1) q jobs []

/-- serverCLI.go:445-469 "jdel", when nothing happens in between. -/
def jdel (q : Q) (keys : List String) : Option (Q × List String) := deleteJobs q (select q keys)

end Verif.Server.Delete
