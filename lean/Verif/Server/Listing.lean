import Std.Data.String.ToInt
/-!
# Model of filtering and limiting job listings

`/repo/jobqueue/server.go:2601-2789` `limitJobs` and the functions it uses. Left out: filling in the output and
environment of the jobs returned (`populateJobData`), so the options `GetStd` and `GetEnv` appear only where they decide
whether anything is done.
-/
namespace Verif.Server.Listing

/-- job.go:54-67 `JobState`. -/
inductive JobState
  | new | delayed | ready | reserved | running | lost | buried | dependent | complete | deleted | deletable | unknown
  deriving DecidableEq, Repr

/-- job.go:54-67: the strings. -/
def JobState.str : JobState → String
  | .new => "new" | .delayed => "delayed" | .ready => "ready" | .reserved => "reserved" | .running => "running"
  | .lost => "lost" | .buried => "buried" | .dependent => "dependent" | .complete => "complete"
  | .deleted => "deleted" | .deletable => "deletable" | .unknown => "unknown"

/-- job.go:87-340 `Job`: the fields used; `key` stands for all others. -/
structure Job where
  key : String
  state : JobState
  exitcode : Int := 0
  failReason : String := ""
  lost : Bool := false
  similar : Nat := 0
  deriving DecidableEq, Repr

/-- server.go:2601-2609 `limitJobsOptions`; no state is the empty string. -/
structure Opts where
  limit : Int := 0
  offset : Int := 0
  failReason : String := ""
  exitCode : Int := 0
  state : Option JobState := none
  getStd : Bool := false
  getEnv : Bool := false

/-- server.go:2629-2643 `normalizeOptions`. -/
def normalizeOptions (o : Opts) : Opts :=
  { o with
    limit := if o.limit < 0 then 0 else o.limit
    offset := if o.offset < 0 then 0 else o.offset
    state := if o.state = some .running then some .reserved else o.state }

/-- server.go:2684-2694 `normalizeJobState`. -/
def normalizeJobState (s : JobState) (lost : Bool) : JobState :=
  if s = .running then (if lost then .lost else .reserved) else s

/-- server.go:2697-2707 `matchesStateFilter`. -/
def matchesStateFilter (s : JobState) : Option JobState → Bool
  | none => true
  | some .deletable => s ≠ .running && s ≠ .complete
  | some f => s = f

/-- server.go:2711-2718 `matchesFailureFilter`. -/
def matchesFailureFilter (reason : String) (code : Int) (fReason : String) (fCode : Int) : Bool :=
  if fReason = "" then true else reason = fReason && code = fCode

/-- server.go:2667-2674 `jobMatchesFilters`. -/
def jobMatchesFilters (o : Opts) (j : Job) : Bool :=
  matchesStateFilter (normalizeJobState j.state j.lost) o.state &&
    matchesFailureFilter j.failReason j.exitcode o.failReason o.exitCode

/-- server.go:2742 the name of a group, `fmt.Sprintf("%s.%d.%s", …)`. -/
def groupName (j : Job) : String :=
  (normalizeJobState j.state j.lost).str ++ "." ++ Int.repr j.exitcode ++ "." ++ j.failReason

/-- A Go map from group names to jobs. -/
abbrev Groups := List (String × List Job)

/-- server.go:2774-2789 `addJobToGroup`. `jobs[lenj-1].Similar++` works on the last job of the slice. -/
def addJobToGroup (o : Opts) (j : Job) (g : String) (m : Groups) : Groups :=
  match m with
  | [] => [(g, [j])]
  | (g', js) :: m' =>
    if g' = g then
      (if (js.length : Int) = o.offset + o.limit then
        (g', js.dropLast ++ (js.getLast?.map fun l => { l with similar := l.similar + 1 }).toList)
      else (g', js ++ [j])) :: m'
    else (g', js) :: addJobToGroup o j g m'

/-- server.go:2730-2748 `groupJobsByCharacteristics`. -/
def groupJobs (o : Opts) (jobs : List Job) : Groups :=
  jobs.foldl (fun m j => if jobMatchesFilters o j then addJobToGroup o j (groupName j) m else m) []

/-- server.go:2751-2766 `applyOffsetToGroups`. -/
def applyOffset (offset : Int) (m : Groups) : Groups :=
  if offset ≤ 0 then m
  else m.filterMap fun p => if offset < p.2.length then some (p.1, p.2.drop offset.toNat) else none

/-- server.go:2769-2776 `collectJobsFromGroups`: a Go map is visited in any order, which is `order`. -/
def collect (order : Groups → Groups) (m : Groups) : List Job := (order m).flatMap (·.2)

/-- server.go:2615-2626 `limitJobs`, with 2646-2663 `filterAndGroupJobs` and `filterJobsByState` and 2721-2726
`groupAndLimitJobs`. -/
def limitJobs (order : Groups → Groups) (o : Opts) (jobs : List Job) : List Job :=
  if ¬ (0 < o.limit ∨ o.state ≠ none ∨ o.getStd ∨ o.getEnv) then jobs
  else
    let o := normalizeOptions o
    if o.limit = 0 then jobs.filter (jobMatchesFilters o)
    else collect order (applyOffset o.offset (groupJobs o jobs))

end Verif.Server.Listing
