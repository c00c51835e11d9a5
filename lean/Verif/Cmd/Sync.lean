/-
`wr add --sync`: cmd/add.go:484-511 and 922-972, with the parts of the server that decide what it sees of its job: adding
(jobqueue/server.go:1866-1940, 2149-2165, jobqueue/serverCLI.go:159-190), reserving and starting (serverCLI.go:243-262, 274-304), the end
of a run (serverCLI.go:344-424, server.go:2077-2145, job.go:813-837), kicking and deleting, and looking jobs up by key
(server.go:2340-2382, client.go:1821-1831).

One job (the one that is added) is followed. Requests of the server are steps, except that a run that ends badly takes two: moving the
item in the queue (server.go:2095-2118) and changing the job (server.go:2124-2143), since looking up the job can come in between.
Simplifications: requests always get their answer; dependencies and delays only decide when a job becomes ready; what the job prints is
not modelled.
-/
namespace Verif.Cmd.Sync

/-- the sub-queue that the job's item is in -/
inductive Sub where
  | waiting
  | run
  | bury
deriving DecidableEq

/-- where the job is: nowhere, in the queue, or among the complete ones in the database -/
inductive Place where
  | gone
  | queued (s : Sub)
  | done
deriving DecidableEq

/-- the job as the server knows it; `finishing` is a bad end of a run for which the item has been moved already: the exit code, if the
command ran, and whether burying was asked for -/
structure Srv where
  place : Place := .gone
  exited : Bool := false
  exit : Int := 0
  started : Bool := false
  untilBuried : Nat := 0
  finishing : Option (Option Int × Bool) := none
deriving DecidableEq

/-- the command `wr add --sync`: not begun, its job added, waiting for the job, or over with an exit status -/
inductive Cli where
  | idle
  | added
  | waiting
  | over (status : Nat)
deriving DecidableEq

/-- both -/
structure S where
  srv : Srv := {}
  cli : Cli := .idle
deriving DecidableEq

/-- what may happen -/
inductive Ev where
  /-- our own add reaches the server; `rerun` is --rerun -/
  | add (rerun : Bool)
  /-- the server looks for the ids to answer it with, and the answer is acted upon -/
  | lookup
  /-- one turn of the loop that waits -/
  | poll
  /-- someone else adds the same job -/
  | otherAdd (rerun : Bool)
  | reserve
  | start
  /-- a run ends badly: released or (`force`) buried, first step -/
  | end1 (code : Option Int) (force : Bool)
  /-- second step -/
  | end2
  /-- a run ends well -/
  | archive
  | kick
  | delete
deriving DecidableEq

/-- `Retries` + 1 of the job, as every add sets it -/
abbrev Tries := Nat

/-- server.go:1866-1940 `createJobs` for this job: nothing happens to one in the queue, nor to a complete one unless it is to be rerun;
else it's put into the queue -/
def createJob (tries : Tries) (rerun : Bool) (j : Srv) : Srv :=
  match j.place with
  | .queued _ => j
  | .done => if rerun then { place := .queued .waiting, untilBuried := tries } else j
  | .gone => { place := .queued .waiting, untilBuried := tries }

/-- what os.Exit makes of a code (Linux: the lowest 8 bits) -/
def status (code : Int) : Nat := (code % 256).toNat

/-- the exit status of a Go program that panics -/
def panicked : Nat := 2

/-- server.go:2149-2165 `inputToQueuedJobs` looks only in the queue; cmd/add.go:500-510: no id means exit code 1 -/
def lookupIDs (j : Srv) : Cli :=
  match j.place with
  | .queued _ => .waiting
  | _ => .over 1

/-- cmd/add.go:953-962 and 939: one turn of `waitForJobCompletion` and then exiting with the exit code; `GetByEssence` gives a nil
job if there is none, so that reading its state panics. The state is that of the item (serverCLI.go:797-862). -/
def pollJob (j : Srv) : Cli :=
  match j.place with
  | .gone => .over panicked
  | .done => .over (status j.exit)
  | .queued .bury => .over (status j.exit)
  | .queued _ => .waiting

/-- server.go:2077-2122: the decision to bury, and the move in the queue -/
def endMove (force : Bool) (j : Srv) : Place :=
  if force || (j.started && j.untilBuried == 1) then .queued .bury else .queued .waiting

/-- job.go:813-837 `updateAfterExit` and server.go:2124-2143 -/
def endUpdate (code : Option Int) (force : Bool) (j : Srv) : Srv :=
  let j :=
    match code with
    | some c => if j.exited then j else { j with exited := true, exit := c }
    | none => j
  { j with
    finishing := none
    untilBuried := if force then 0 else if j.started then j.untilBuried - 1 else j.untilBuried }

/-- one step; none: it can't happen now -/
def step (tries : Tries) (s : S) : Ev → Option S
  | .add rerun => if s.cli = .idle then some { srv := createJob tries rerun s.srv, cli := .added } else none
  | .lookup => if s.cli = .added then some { s with cli := lookupIDs s.srv } else none
  | .poll => if s.cli = .waiting then some { s with cli := pollJob s.srv } else none
  | .otherAdd rerun => some { s with srv := createJob tries rerun s.srv }
  | .reserve =>
    if s.srv.place = .queued .waiting ∧ s.srv.finishing = none then
      some { s with srv := { s.srv with place := .queued .run, exited := false, exit := -1, started := false } }
    else none
  | .start => if s.srv.place = .queued .run then some { s with srv := { s.srv with started := true } } else none
  | .end1 code force =>
    if s.srv.place = .queued .run ∧ s.srv.finishing = none ∧ (∀ c ∈ code, -1 ≤ c ∧ c ≤ 255) then
      some { s with srv := { s.srv with place := endMove force s.srv, finishing := some (code, force) } }
    else none
  | .end2 =>
    match s.srv.finishing with
    | some (code, force) => some { s with srv := endUpdate code force s.srv }
    | none => none
  | .archive =>
    if s.srv.place = .queued .run ∧ s.srv.started = true ∧ s.srv.finishing = none then
      some { s with srv := { s.srv with place := .done, exited := true, exit := 0 } }
    else none
  | .kick =>
    if s.srv.place = .queued .bury ∧ s.srv.finishing = none then
      some { s with srv := { s.srv with place := .queued .waiting, untilBuried := tries } }
    else none
  | .delete =>
    if (s.srv.place = .queued .waiting ∨ s.srv.place = .queued .bury) ∧ s.srv.finishing = none then
      some { s with srv := { s.srv with place := .gone } }
    else none

/-- a sequence of steps -/
def run (tries : Tries) (s : S) : List Ev → Option S
  | [] => some s
  | e :: es =>
    match step tries s e with
    | some s => run tries s es
    | none => none

end Verif.Cmd.Sync
