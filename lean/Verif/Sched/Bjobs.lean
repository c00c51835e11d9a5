import Verif.Sched.LsfParseLemmas
import Verif.Sched.LsfText
import Verif.Sched.LsfJobs
/-!
# The listing of LSF's jobs (`/repo/jobqueue/scheduler/lsf.go:804-842` `parseBjobs`) and what is killed at the end (`871-889` `cleanup`),
property C145

The output of `bjobs -w` is given as its lines. White space is that of `Sched/LsfParse.lean`. That bjobs cannot be run is left out.
-/
namespace Verif.Sched.Bjobs
open Verif.Sched.Lsf Verif.Sched.LsfParse
open Verif.Sched.LsfText (Word pad)

/-- lsf.go:822-831, one line: fields 0, 2 and 6, if there are more than seven -/
def readLine (text : Str) : Option Line :=
  let f := fields text
  if f.length > 7 then some { jobID := f.getD 0 [], stat := f.getD 2 [], name := f.getD 6 [] } else none

/-- lsf.go:819-837: the lines up to the first that does not fit in the buffer of `max` bytes, and whether that is all of them -/
def scan (max : Nat) : List Str → List Str × Bool
  | [] => ([], true)
  | l :: ls => if l.length < max then (l :: (scan max ls).1, (scan max ls).2) else ([], false)

/-- lsf.go:809-842 `parseBjobs`: what is passed to the callback, and whether there was no error; `exit` is that bjobs itself succeeded
(838-841) -/
def parseBjobs (max : Nat) (exit : Bool) (pre : Str) (text : List Str) : List Line × Bool :=
  let r := scan max text
  ((r.1.filterMap readLine).filter (passed pre), r.2 && exit)

/-- lsf.go:766-793 `checkCmd` with max ≥ 0 on a listing: the count, the ids bkill is called with, and whether there was no error -/
def checkText (max : Nat) (exit : Bool) (pre : Str) (lim : Nat) (text : List Str) : Nat × List Str × Bool :=
  let r := parseBjobs max exit pre text
  ((checkLoop lim r.1 0 []).1, (checkLoop lim r.1 0 []).2, r.2)

/-- lsf.go:794-799 `checkCmd` with max < 0 -/
def countText (max : Nat) (exit : Bool) (pre : Str) (text : List Str) : Nat × Bool :=
  let r := parseBjobs max exit pre text
  (r.1.length, r.2)

/-- lsf.go:669-676 `busy`; `pre` is that of the deployment -/
def busy (max : Nat) (exit : Bool) (pre : Str) (text : List Str) : Bool :=
  let r := countText max exit pre text
  if !r.2 then true else decide (r.1 > 0)

/-- lsf.go:753 and 877: what the names of all jobs of a deployment begin with -/
def depPrefix (deployment : Str) : Str := "wr".toList ++ deployment.take 1 ++ "_".toList

/-- lsf.go:872-882 `cleanup`: the ids bkill is called with -/
def cleanup (max : Nat) (exit : Bool) (deployment : Str) (text : List Str) : List Str :=
  (parseBjobs max exit (depPrefix deployment) text).1.map (·.jobID)

/-- what bkill does: it ends jobs, elements, and all the elements of arrays -/
def bkillAny (ids : List Str) (js : List Job) : List Job :=
  js.filter fun j => j.stat = "EXIT".toList || j.stat = "DONE".toList || !(ids.contains j.target || ids.contains j.id)

/-! ## What bjobs prints -/

/-- a line: a job, and the other columns; `more` is what follows the first word of the name -/
structure Row where
  job : Job
  user : Str
  queue : Str
  fromHost : Str
  execHost : Str
  more : List Str
  gaps : Nat → Nat

/-- the columns of `bjobs -w`: JOBID USER STAT QUEUE FROM_HOST EXEC_HOST JOB_NAME SUBMIT_TIME -/
def Row.text (inID : Bool) (r : Row) : Str :=
  (r.job.line inID).jobID ++
    pad r.gaps (r.user :: r.job.stat :: r.queue :: r.fromHost :: r.execHost :: r.job.name :: r.more)

/-- no column is empty, and there is a time -/
def Row.Ok (inID : Bool) (r : Row) : Prop :=
  Word (r.job.line inID).jobID ∧ Word r.user ∧ Word r.job.stat ∧ Word r.queue ∧ Word r.fromHost ∧ Word r.execHost ∧ Word r.job.name ∧
    r.more ≠ [] ∧ ∀ w ∈ r.more, Word w

def header : Str := "JOBID   USER    STAT  QUEUE      FROM_HOST   EXEC_HOST   JOB_NAME   SUBMIT_TIME".toList

/-- all of it -/
def listing (inID : Bool) (rows : List Row) : List Str := header :: rows.map (Row.text inID)

end Verif.Sched.Bjobs
