/-!
# The standard output and error of failed jobs

(jobqueue/db.go updateJobAfterExit, retrieveJobStd, archiveJob, deleteLiveJobs, modifyLiveJobs;
jobqueue/server.go releaseJob, killJob, scheduleRunners, shouldPopulateStd, populateJobData;
jobqueue/serverCLI.go reserve, jrelease, jbury, itemToJob, jobPopulateStdEnv, jobCouldHaveStd; jobqueue/job.go
updateAfterExit)

What a command printed is not kept with the job in memory but in two buckets of the database, under the key of the job,
and it is written there by a goroutine started when the job is released or buried.  One event of the model is one step
that no other can interleave with: a request, as far as it changes the job, or one transaction of the database.

Simplifications: keys are numbers, and what was printed is a list of numbers; transactions do not fail; a job is what
decides whether output is looked up for it; the reasons for which jobs are released rather than buried are left to the
event.  Restarts of the manager are left out.
-/

namespace Verif.Server.Std

/-- What a command printed (compressed, in the code) on standard output and on standard error: JobEndState.Stdout and
.Stderr (jobqueue/client.go:1646-1656). -/
structure Out where
  stdout : List Nat
  stderr : List Nat
deriving DecidableEq, Repr

/-- Nothing printed. -/
def Out.nothing : Out := ⟨[], []⟩

/-- Where the item of a job is in the queue, as far as it matters here. -/
inductive Place
  /-- ready, delayed or dependent -/
  | waiting
  | run
  | buried
deriving DecidableEq, Repr

/-- Job.Exited, Job.Exitcode and the sub-queue of the item (jobqueue/job.go:266-269). -/
structure J where
  exited : Bool
  code : Int
  place : Place
deriving DecidableEq, Repr

/-- JobEndState (jobqueue/client.go:1646-1656): whether the command exited, its exit code, and what it printed. -/
structure EndState where
  exited : Bool
  code : Int
  out : Out
deriving DecidableEq, Repr

/-- What the goroutine of updateJobAfterExit is going to do with the buckets of output (db.go:1057-1104): `keep` is
`jec != 0 || forceStorage`. -/
structure Write where
  key : Nat
  keep : Bool
  out : Out
deriving DecidableEq, Repr

/-- The jobs in the queue, the buckets bucketStdO and bucketStdE, and the goroutines of updateJobAfterExit that have not
executed their transaction yet (their number is `updatingAfterJobExit`). -/
structure S where
  job : Nat → Option J := fun _ => none
  bo : Nat → Option (List Nat) := fun _ => none
  be : Nat → Option (List Nat) := fun _ => none
  pend : List Write := []

/-- A map with one value changed. -/
def upd {α : Type} (f : Nat → α) (k : Nat) (v : α) : Nat → α := fun i => if i = k then v else f i

/-- A value put in a bucket, if it is not empty (db.go:1097-1102). -/
def put (b : Nat → Option (List Nat)) (k : Nat) (v : List Nat) : Nat → Option (List Nat) :=
  if v.length > 0 then upd b k (some v) else b

/-- The transaction of updateJobAfterExit (db.go:1085-1104): both values are deleted first, then put if they are to be
kept and are not empty. -/
def exec (s : S) (w : Write) : S :=
  let bo := upd s.bo w.key none
  let be := upd s.be w.key none
  if w.keep then { s with bo := put bo w.key w.out.stdout, be := put be w.key w.out.stderr } else { s with bo, be }

/-- updateAfterExit (job.go:813-837): only if the end state says that the command exited, and the job is not already
known to have. -/
def afterExit (j : J) (es : EndState) : J :=
  if j.exited then j else if es.exited then { j with exited := true, code := es.code } else j

/-- What can happen. -/
inductive Ev
  /-- a job is added to the queue (server.go:1866 createJobs) -/
  | add (k : Nat)
  /-- a client reserves a job (serverCLI.go:191-273) -/
  | reserve (k : Nat)
  /-- a client releases or buries the job it ran (serverCLI.go:391-424); whether the job ends up buried -/
  | ended (k : Nat) (es : EndState) (bury : Bool)
  /-- a lost job is confirmed to be dead (server.go:1817, 2187-2191) -/
  | dead (k : Nat) (bury : Bool)
  /-- a client archives the job it ran (serverCLI.go:344-390) -/
  | archive (k : Nat)
  /-- a job that is not running is deleted (server.go:2201-2264) -/
  | delete (k : Nat)
  /-- the job can never be scheduled and is buried without being run (server.go:2854-2876) -/
  | impossible (k : Nat)
  /-- a buried job is kicked (server.go:2314-2338) -/
  | kick (k : Nat)
  /-- a job that is not running is modified such that its key changes (serverCLI.go:470-601) -/
  | rekey (k k' : Nat)
  /-- the transaction of one of the goroutines is executed -/
  | exec (i : Nat)
deriving DecidableEq, Repr

/-- releaseJob (server.go:2077-2145) for a job that is in the run queue: the job is updated, and a goroutine is started
that will write what was printed. -/
def release (s : S) (k : Nat) (es : EndState) (force bury : Bool) : Option S :=
  match s.job k with
  | some j =>
    if j.place = .run then
      let j' := afterExit j es
      some { s with job := upd s.job k (some { j' with place := if bury then .buried else .waiting }),
                    pend := s.pend ++ [⟨k, decide (j'.code ≠ 0) || force, es.out⟩] }
    else none
  | none => none

/-- One step; `none` when the event cannot happen. -/
def step (s : S) : Ev → Option S
  | .add k => match s.job k with
    | none => some { s with job := upd s.job k (some ⟨false, 0, .waiting⟩) }
    | some _ => none
  | .reserve k => match s.job k with
    -- serverCLI.go:243-252: past state is cleaned up
    | some j => if j.place = .waiting then some { s with job := upd s.job k (some ⟨false, -1, .run⟩) } else none
    | none => none
  -- serverCLI.go:400 and 417: forceStorage is true
  | .ended k es bury => release s k es true bury
  -- server.go:1817 and 2189: JobEndState{Exitcode: -1, Exited: true}, forceStorage is false
  | .dead k bury => release s k ⟨true, -1, .nothing⟩ false bury
  | .archive k => match s.job k with
    -- db.go:700-712: both values are deleted; the job leaves the queue
    | some j => if j.place = .run
        then some { s with job := upd s.job k none, bo := upd s.bo k none, be := upd s.be k none } else none
    | none => none
  | .delete k => match s.job k with
    -- db.go:768-786: deleteLiveJobs deletes from the bucket of live jobs only
    | some j => if j.place = .run then none else some { s with job := upd s.job k none }
    | none => none
  | .impossible k => match s.job k with
    | some j => if j.place = .waiting then some { s with job := upd s.job k (some { j with place := .buried }) } else none
    | none => none
  | .kick k => match s.job k with
    | some j => if j.place = .buried then some { s with job := upd s.job k (some { j with place := .waiting }) } else none
    | none => none
  | .rekey k k' => match s.job k, s.job k' with
    -- db.go:1195-1320: modifyLiveJobs does not touch the buckets of output
    | some j, none => if j.place = .run then none else some { s with job := upd (upd s.job k none) k' (some j) }
    | _, _ => none
  | .exec i => match s.pend[i]? with
    | some w => some { exec s w with pend := s.pend.eraseIdx i }
    | none => none

/-- A sequence of steps. -/
def run (s : S) : List Ev → Option S
  | [] => some s
  | e :: es => match step s e with
    | some s' => run s' es
    | none => none

/-- jobCouldHaveStd (serverCLI.go:884-886): it exited with a code other than 0, or it is buried. -/
def couldHaveStd (j : J) : Bool := (j.exited && decide (j.code ≠ 0)) || decide (j.place = .buried)

/-- retrieveJobStd (db.go:1324-1360), called by jobPopulateStdEnv (serverCLI.go:866-882) for a job that is listed with its
output: it waits until there are no goroutines of updateJobAfterExit left (`none`: it would wait), then reads both
buckets. -/
def retrieve (s : S) (k : Nat) : Option Out :=
  if s.pend.length = 0 then some ⟨(s.bo k).getD [], (s.be k).getD []⟩ else none

/-- What is shown as the output of a job that is in the queue, when its output was asked for: jobPopulateStdEnv
(serverCLI.go:866-882). -/
def shown (s : S) (k : Nat) : Option Out :=
  match s.job k with
  | some j => if couldHaveStd j then retrieve s k else some .nothing
  | none => some .nothing

/-- maxJobsForStd (server.go:91). -/
def maxJobsForStd : Nat := 1000

/-- shouldPopulateStd (server.go:2808-2822). -/
def shouldPopulateStd (jobs : List J) (getStd : Bool) : Bool :=
  if getStd then decide ((jobs.filter couldHaveStd).length ≤ maxJobsForStd) else false

/-- What is shown for jobs that are listed together (server.go:2340-2375 getJobsByKeys, 2611-2626 limitJobs, 2793-2803
populateJobData): the jobs as they were copied, and the state in which their output is looked up. -/
def listed (s : S) (jobs : List (Nat × J)) (getStd : Bool) : List (Option Out) :=
  jobs.map fun kj =>
    if shouldPopulateStd (jobs.map (·.2)) getStd && couldHaveStd kj.2 then retrieve s kj.1 else some .nothing

end Verif.Server.Std
