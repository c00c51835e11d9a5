import Verif.Queue.Props
/-!
# Model of what a restarted server puts in its queue

`/repo/jobqueue/server.go:751-809` (part of `Serve`), `/repo/jobqueue/db.go:796-814` `recoverIncompleteJobs`,
`/repo/jobqueue/db.go:647-650` `generateLookupKey`, `/repo/jobqueue/db.go:653-664` `checkIfLive`,
`/repo/jobqueue/db.go:984-1002` `retrieveIncompleteJobKeysByDepGroup` and `/repo/jobqueue/dependency.go:29-117`
`incompleteJobKeys`. The queue is the model of `Verif.Queue`.

Left out: the counting of limit groups (766-774; see `Limiter/Restart.lean`), telling the job scheduler about running jobs (776-780), and database
errors, which make the start of the server fail.
-/
namespace Verif.Server.Recover
open Verif.Queue (Def Q)

/-- The recorded states that `Serve` tells apart (server.go:762-783). -/
inductive JS | running | buried | other
  deriving DecidableEq, Repr

/-- dependency.go:76-82 `Dependency`: a dep group, or the key of the job described by the essence. -/
inductive Dep
  | group (g : String)
  | essence (key : String)
  | nothing
  deriving DecidableEq, Repr

/-- A record of the live bucket: job.go:87-340 `Job`, the fields used. `data` stands for the job itself. -/
structure Rec where
  key : String
  state : JS := .other
  deps : List Dep := []
  data : Nat := 0
  priority : Nat := 0
  group : String := ""
  deriving Repr

/-- The buckets used: `bucketJobsLive`, and `bucketDTK`, whose keys are made from a dep group and the key of a job that
was at some time added with that dep group (db.go:585-640). Bolt iterates over them in the order of their keys; a list
in any order stands for the bucket. -/
structure DB where
  live : List Rec := []
  dtk : List (List Char) := []

/-- db.go:53. -/
def delimiter : List Char := ['_', ':', ':', '_']

/-- db.go:647-650 `generateLookupKey`. -/
def lookupKey (prefix_ key : String) : List Char := prefix_.toList ++ delimiter ++ key.toList

/-- db.go:653-664 `checkIfLive`. -/
def isLive (db : DB) (key : String) : Bool := db.live.any fun r => r.key = key

/-- db.go:984-1002 `retrieveIncompleteJobKeysByDepGroup`. -/
def byDepGroup (db : DB) (g : String) : List String :=
  let p := g.toList ++ delimiter
  (db.dtk.filter fun e => p.isPrefixOf e).filterMap fun e =>
    let key := String.ofList (e.drop p.length)
    if isLive db key then some key else none

/-- dependency.go:99-117 `Dependency.incompleteJobKeys`. -/
def depKeys (db : DB) : Dep → List String
  | .group g => if g = "" then [] else byDepGroup db g
  | .essence k => if isLive db k then [k] else []
  | .nothing => []

/-- dependency.go:36-59 `Dependencies.incompleteJobKeys`: the keys of a Go map, that is without repetition and in any
order; `uniq` is that choice of order. -/
def incompleteJobKeys (uniq : List String → List String) (db : DB) (deps : List Dep) : List String :=
  uniq (deps.flatMap (depKeys db))

/-- server.go:754-783: the item made for one recovered job. `ttr` is `ServerItemTTR`. -/
def itemdef (uniq : List String → List String) (ttr : Int) (db : DB) (r : Rec) : Def :=
  { key := r.key, group := r.group, data := r.data, priority := r.priority, delay := 0, ttr := ttr
    start := match r.state with
      | .running => some true
      | .buried => some false
      | .other => none
    deps := incompleteJobKeys uniq db r.deps }

/-- server.go:735-790: a new queue filled by `AddMany` (server.go:1840-1862 `enqueueItems`). -/
def recover (uniq : List String → List String) (ttr now : Int) (db : DB) : Q :=
  (Verif.Queue.new.addMany (db.live.map (itemdef uniq ttr db)) now).q

end Verif.Server.Recover
