/-!
# The database and the in-memory queue: what survives a crash

(jobqueue/db.go storeNewJobs, archiveJob, deleteLiveJobs, updateJobAfterExit, updateJobAfterChange,
recoverIncompleteJobs; jobqueue/server.go createJobs, deleteJobs, Serve; jobqueue/serverCLI.go jarchive)

Every bolt transaction is one atomic step, and so is every operation on the in-memory queue; a request is a thread whose
steps may be interleaved with those of other requests, with the asynchronous writes and with a crash.

Simplifications: a job is its key and the state that recovery looks at; dependencies, limits, lookups, standard output
and the statistics buckets are left out; transactions do not fail.  The choice of batches by storeBatched is arbitrary
here (`Verif.Utils.storeBatched` models it).
-/

namespace Verif.Server.Db

/-- The states of a job that the recovery in Serve tells apart (server.go:779-802). -/
inductive JS
  | ready
  | running
  | buried
deriving DecidableEq, Repr

/-- A request in progress. -/
inductive Th
  /-- createJobs (server.go:1866): the jobs kept by prepareNewJobs, and those of them still to be stored -/
  | add (kept todo : List Nat)
  /-- jarchive (serverCLI.go:344) of a job; whether archiveJob has returned -/
  | arch (k : Nat) (stored : Bool)
  /-- deleteJobs (server.go:2201): jobs taken out of the queue, to be deleted from the live bucket -/
  | del (removed : List Nat)
deriving DecidableEq, Repr

/-- What clients see. -/
inductive Ev
  | addBegin (ks : List Nat)
  | addAck (ks : List Nat)
  | archBegin (k : Nat)
  | archAck (k : Nat)
  | delBegin (k : Nat)
  | delAck (ks : List Nat)
  | crash
deriving DecidableEq, Repr

/-- The live and complete buckets, the in-memory queue, the asynchronous writes that have not been executed yet, the
requests in progress, and the history (a ghost). -/
structure S where
  live : Nat → Option JS := fun _ => none
  complete : Nat → Bool := fun _ => false
  queue : Nat → Option JS := fun _ => none
  pend : List (Nat × JS) := []
  ths : Nat → Option Th := fun _ => none
  next : Nat := 0
  log : List Ev := []

/-- A map with one value changed. -/
def upd {α : Type} (f : Nat → α) (k : Nat) (v : α) : Nat → α := fun i => if i = k then v else f i

/-- A map with the value of several keys changed. -/
def updAll {α : Type} (f : Nat → α) (ks : List Nat) (v : α) : Nat → α := fun i => if i ∈ ks then v else f i

/-- Steps. -/
inductive Op
  /-- an add request is received and prepared (prepareNewJobs, db.go:550) -/
  | beginAdd (ks : List Nat) (ignoreAdded : Bool)
  /-- an archive request passes its checks (serverCLI.go:350-373) -/
  | beginArch (k : Nat)
  /-- a delete request is received -/
  | beginDel
  /-- a delete request takes a job out of the queue (server.go:2223) -/
  | delKey (t : Nat) (k : Nat)
  /-- the next transaction or queue operation of request `t`; an add stores the next `n + 1` jobs -/
  | step (t : Nat) (n : Nat)
  /-- a job starts running: the queue state changes and a write is scheduled (serverCLI.go:274-304) -/
  | start (k : Nat)
  /-- a run ends with a release (`ready`) or a bury: likewise (serverCLI.go:391-424) -/
  | finish (k : Nat) (to : JS)
  /-- a buried job is kicked: likewise (serverCLI.go:425-444) -/
  | kick (k : Nat)
  /-- the `i`-th scheduled write is executed (db.go:1083-1094, 1160-1172) -/
  | write (i : Nat)
  /-- the manager dies and is started again (server.go:751-809) -/
  | crash
deriving DecidableEq, Repr

/-- checkIfAdded (db.go:669-680). -/
def checkIfAdded (s : S) (k : Nat) : Bool := (s.live k).isSome || s.complete k

/-- One step, `none` if it is not possible. -/
def step (s : S) : Op → Option S
  | .beginAdd ks ig =>
    -- db.go:559-569
    let kept := if ig then ks.filter (fun k => !checkIfAdded s k) else ks
    some { s with ths := upd s.ths s.next (some (.add kept kept)), next := s.next + 1, log := s.log ++ [.addBegin kept] }
  | .beginArch k =>
    -- serverCLI.go:358: the item must be in the run sub-queue
    if s.queue k = some .running then
      some { s with ths := upd s.ths s.next (some (.arch k false)), next := s.next + 1, log := s.log ++ [.archBegin k] }
    else none
  | .beginDel => some { s with ths := upd s.ths s.next (some (.del [])), next := s.next + 1 }
  | .delKey t k =>
    match s.ths t with
    | some (.del rm) =>
      -- server.go:2223; jdel leaves out running jobs (serverCLI.go:454)
      match s.queue k with
      | some .ready | some .buried =>
        some { s with queue := upd s.queue k none, ths := upd s.ths t (some (.del (k :: rm))), log := s.log ++ [.delBegin k] }
      | _ => none
    | _ => none
  | .step t n =>
    match s.ths t with
    | none => none
    | some (.add kept []) =>
      -- enqueueItems (server.go:1933): items already in the queue are left alone
      some { s with queue := fun k => if k ∈ kept then some ((s.queue k).getD .ready) else s.queue k
                    ths := upd s.ths t none, log := s.log ++ [.addAck kept] }
    | some (.add kept todo) =>
      -- storeEncodedJobs: one transaction per batch; the record of a new job
      some { s with live := updAll s.live (todo.take (n + 1)) (some .ready)
                    ths := upd s.ths t (some (.add kept (todo.drop (n + 1)))) }
    | some (.arch k false) =>
      -- archiveJob (db.go:699-761), one transaction
      some { s with live := upd s.live k none, complete := upd s.complete k true
                    ths := upd s.ths t (some (.arch k true)) }
    | some (.arch k true) =>
      -- serverCLI.go:379
      some { s with queue := upd s.queue k none, ths := upd s.ths t none, log := s.log ++ [.archAck k] }
    | some (.del rm) =>
      -- deleteLiveJobs (db.go:768-788), one transaction
      some { s with live := updAll s.live rm none, ths := upd s.ths t none, log := s.log ++ [.delAck rm] }
  | .start k =>
    if s.queue k = some .ready then
      some { s with queue := upd s.queue k (some .running), pend := s.pend ++ [(k, .running)] }
    else none
  | .finish k to =>
    if s.queue k = some .running ∧ to ≠ .running then
      some { s with queue := upd s.queue k (some to), pend := s.pend ++ [(k, to)] }
    else none
  | .kick k =>
    if s.queue k = some .buried then
      some { s with queue := upd s.queue k (some .ready), pend := s.pend ++ [(k, .ready)] }
    else none
  | .write i =>
    match s.pend[i]? with
    | none => none
    | some (k, st) =>
      -- only if the key is (still) in the live bucket
      some { s with live := if (s.live k).isSome then upd s.live k (some st) else s.live, pend := s.pend.eraseIdx i }
  | .crash =>
    -- the queue is filled from the live bucket, each job in its recorded state
    some { s with queue := s.live, pend := [], ths := fun _ => none, log := s.log ++ [.crash] }

/-- A history of steps. -/
def run (s : S) : List Op → Option S
  | [] => some s
  | o :: os => (step s o).bind (run · os)

end Verif.Server.Db
