/-!
# The end of Execute (jobqueue/client.go:1225-1534)

What a client does once the command of a job ended: it decides on archiving, burying or releasing the job, triggers
behaviours, unmounts, and tells the server, again and again if that fails.

Simplifications: the errors are told apart only where the code does. What the server does with a request is one step: it
carries it out if the job is still running for this client, else it answers with ErrBadJob, or that it did so before. Times are numbers.
-/
namespace Verif.Client

/-- what `cmd.Wait()` returned (client.go:1218): nil, an `*exec.ExitError` with the exit status, or another error -/
inductive Wait where
  | ok
  | exit (code : Int)
  | other
  deriving DecidableEq, Repr

/-- the error of `job.Unmount()` (client.go:1312): none, one with "failed to upload" in it, or another -/
inductive UnmountErr where
  | none | upload | other
  deriving DecidableEq, Repr

/-- the state of `Execute` when the command has ended -/
structure Ended where
  wait : Wait
  ranoutMem : Bool := false
  ranoutDisk : Bool := false
  signalled : Bool := false
  ranoutTime : Bool := false
  killCalled : Bool := false
  /-- `myerr` at client.go:1279, which docker monitoring may set -/
  monitorErr : Bool := false
  killErr : Bool := false
  /-- an error in closing other than "file already closed" -/
  closeErr : Bool := false
  /-- behaviours return an error when triggered with this -/
  behavErr : Bool → Bool := fun _ => false
  unmountErr : UnmountErr := .none
  untilBuried : Nat := 1
  noRetriesOverWalltime : Nat := 0
  wallTime : Nat := 0

inductive Action where
  | bury | release | archive
  deriving DecidableEq, Repr

/-- the `FailReason…` constants used (jobqueue/job.go) -/
inductive Reason where
  | none | upload | cperm | cfound | cexit | ram | disk | time | signal | killed | exit | abnormal
  deriving DecidableEq, Repr

/-- local variables of client.go:1262-1428 -/
structure Local where
  dobury : Bool := false
  dorelease : Bool := false
  doarchive : Bool := false
  failreason : Reason := .none
  exitcode : Int := 0
  myerr : Bool := false
  triggered : List Bool := []
  deriving DecidableEq, Repr

/-- client.go:1279-1307: earlier errors, then the behaviours -/
def behave (e : Ended) : Local :=
  let myerr := e.monitorErr || e.killErr || e.closeErr
  let success := e.wait == .ok && !myerr
  { myerr := myerr || e.behavErr success, triggered := [success] }

/-- client.go:1311-1332: unmounting -/
def unmount (e : Ended) (l : Local) : Local :=
  match e.unmountErr with
  | .none => l
  | .other => { l with myerr := true }
  | .upload => { l with
      dorelease := if l.dobury then l.dorelease else true
      failreason := if l.failreason = .none then .upload else l.failreason
      exitcode := if l.exitcode = 0 then -2 else l.exitcode
      myerr := true }

/-- client.go:1364-1428: the decision -/
def decision (e : Ended) (l : Local) : Local :=
  match e.wait with
  | .exit code =>
    let l := { l with exitcode := code, myerr := true }
    if code = 126 then { l with dobury := true, failreason := .cperm }
    else if code = 127 then { l with dobury := true, failreason := .cfound }
    else if code = 128 then { l with dobury := true, failreason := .cexit }
    else
      let l := { l with dorelease := true }
      if e.ranoutMem then { l with failreason := .ram }
      else if e.ranoutDisk then { l with failreason := .disk }
      else if e.signalled then { l with failreason := if e.ranoutTime then .time else .signal }
      else if e.killCalled then { l with dobury := true, failreason := .killed }
      else if 1 < e.untilBuried ∧ 0 < e.noRetriesOverWalltime ∧ e.noRetriesOverWalltime < e.wallTime then
        { l with dobury := true, failreason := .exit }
      else { l with failreason := .exit }
  | .other => { l with exitcode := 255, dorelease := true, failreason := .abnormal, myerr := true }
  | .ok => { l with exitcode := 0, doarchive := true, myerr := false }

def finish (e : Ended) : Local := decision e (unmount e (behave e))

/-- client.go:1483-1490 the final switch -/
def Local.action (l : Local) : Option Action :=
  if l.dobury then some .bury else if l.dorelease then some .release else if l.doarchive then some .archive else none

/-- an attempt to tell the server (client.go:1455-1513): it is not reached, or answers with an error that is not final; it gets the request and
the client gets the answer; it gets the request, but the answer is lost; it had taken the job from this client when it got
the request; or it had buried or released the job as asked, and answers so again (server.go:2095-2108). Which of these it is after an
answer was lost is modelled in `Verif.Client.Report`. -/
inductive Attempt where
  | unreached | answered | lost | taken | again
  deriving DecidableEq, Repr

/-- what is seen from outside: what the server carried out for this client, whether `Execute` returned an error, and the
behaviours triggered (true: those for success) -/
structure Outcome where
  done : List Action := []
  err : Bool
  triggered : List Bool
  deriving DecidableEq, Repr

/-- client.go:1455-1533: the loop and what follows. `mine`: the job is still running for this client at the server.
The end of the list is the end of the time for retries (1456). `hadProblems` is set by each failed attempt (1493). -/
def tell (a : Action) (l : Local) (done : List Action) (mine : Bool) (problems : Bool) : List Attempt → Outcome
  | [] => ⟨done, true, l.triggered ++ [false]⟩
  | .unreached :: rest => tell a l done mine true rest
  | .answered :: _ =>
    if mine then ⟨done ++ [a], l.myerr || problems, l.triggered⟩
    else ⟨done, true, l.triggered ++ [false]⟩
  | .lost :: rest => tell a l (if mine then done ++ [a] else done) false true rest
  | .taken :: _ => ⟨done, true, l.triggered ++ [false]⟩
  | .again :: _ =>
    if a ≠ .archive ∧ done ≠ [] then ⟨done, l.myerr || problems, l.triggered⟩
    else ⟨done, true, l.triggered ++ [false]⟩

/-- client.go:1225-1534 `Execute` from the end of the command on -/
def execute (e : Ended) (atts : List Attempt) : Option Outcome :=
  let l := finish e
  l.action.map fun a => tell a l [] true false atts

end Verif.Client
