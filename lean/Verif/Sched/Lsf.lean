import Verif.Util.Str
import Verif.Util.Sort

/-!
# The LSF scheduler (jobqueue/scheduler/lsf.go): choice of a queue, and the number of jobs submitted

The text output of `bqueues -l` and `bjobs -w` is taken as already split in fields. Queue limits are natural numbers (they come
from `\d+` matches); run limits and job times are in seconds, whole ones: a job's time is a Go duration, here in seconds.
-/
namespace Verif.Sched.Lsf
open Verif.Util

/-- the things queues are compared by, lsf.go:330-339; "users" is never set -/
inductive Crit
  | maxUser | max | hosts | prio | chunkSize | numUsers | runlimit | memlimit
  deriving DecidableEq, Repr

/-- what `bqueues -l` says of a queue: lsf.go:143-314. `permitted` is false for those that lines 276-279 delete again, having
given their values to `updateHighest`. -/
structure Queue where
  name : List Char
  attr : Crit → Option Nat
  permitted : Bool

/-- lsf.go:150-155 `updateHighest` over the whole output -/
def highest (all : List Queue) (c : Crit) : Nat := all.foldl (fun m q => Nat.max m ((q.attr c).getD 0)) 0

/-- the criteria `updateHighest` is called for: lsf.go:192, 200, 235, 305. Not the run limit (248-251). -/
def tracked : Crit → Bool
  | .memlimit | .max | .maxUser | .hosts => true
  | _ => false

/-- lsf.go:342-343. A queue without prio reads as 0 from the map. -/
def stdDefault : Crit → Nat
  | .numUsers => 10000
  | .runlimit => 31536000
  | .memlimit => 10000000
  | .max => 10000000
  | .maxUser => 10000000
  | .hosts => 10000000
  | .chunkSize => 0
  | .prio => 0

/-- lsf.go:342-348 `defaults` -/
def defaultOf (all : List Queue) (c : Crit) : Nat :=
  if tracked c ∧ highest all c > 0 then highest all c + 1 else stdDefault c

/-- lsf.go:349-355, the value of a criterion after filling in -/
def value (all : List Queue) (q : Queue) (c : Crit) : Nat := (q.attr c).getD (defaultOf all c)

/-- `s.queues`, without those of line 277 -/
def usable (all : List Queue) : List Queue := all.filter (·.permitted)

/-! ## the preferred order of queues -/

/-- lsf.go:330-339 weight -/
def weight : Crit → Nat
  | .hosts => 18
  | .maxUser => 10
  | .max => 5
  | .prio => 1
  | .chunkSize => 10000
  | .runlimit => 1
  | .memlimit => 1
  | .numUsers => 15

/-- lsf.go:330-339 sort order: true for the larger first -/
def largerFirst : Crit → Bool
  | .hosts | .maxUser | .max | .runlimit => true
  | _ => false

/-- lsf.go:361-364 -/
def criteria : List Crit := [.maxUser, .max, .hosts, .prio, .chunkSize, .numUsers, .runlimit, .memlimit]

/-- the distinct keys of a map built by `m[v] = append(m[v], k)`, in some order -/
def distinct : List Nat → List Nat
  | [] => []
  | v :: vs => if v ∈ distinct vs then distinct vs else v :: distinct vs

/-- `sort.Sort(sort.IntSlice(vals))`, or its reverse -/
def sortVals (rev : Bool) (vs : List Nat) : List Nat := sortBy (fun a b => if rev then decide (b ≤ a) else decide (a ≤ b)) vs

/-- internal/utils.go:95-119 `SortMapKeysByMapIntValue`: the keys grouped by value; in a group they are in the order in which
the map was iterated, which is the order of `qs` -/
def sortByValue {α : Type} (val : α → Nat) (rev : Bool) (qs : List α) : List α :=
  (sortVals rev (distinct (qs.map val))).flatMap fun v => qs.filter fun q => val q = v

/-- lsf.go:369-383, the loop that gives ranks; `prev` is `none` for the -1 it starts with -/
def rankLoop {α : Type} (val : α → Nat) : Option Nat → Nat → List α → List (α × Nat)
  | _, _, [] => []
  | none, r, q :: qs => (q, r) :: rankLoop val (some (val q)) r qs
  | some p, r, q :: qs =>
    if val q = p then (q, r) :: rankLoop val (some (val q)) r qs
    else (q, r + 1) :: rankLoop val (some (val q)) (r + 1) qs

/-- the rank a queue was given -/
def rankIn (l : List (Queue × Nat)) (n : List Char) : Nat :=
  match l.find? (fun e => e.1.name = n) with
  | some e => e.2
  | none => 0

/-- lsf.go:358-384 `ranking`, where `order c` is the order in which the map of queues was iterated for criterion `c` -/
def ranking (all : List Queue) (order : Crit → List Queue) (n : List Char) : Nat :=
  (criteria.map fun c =>
    rankIn (rankLoop (fun q => value all q c) none 0 (sortByValue (fun q => value all q c) (largerFirst c) (order c))) n
      * weight c).sum

/-- `sort.Sort(sort.Reverse(sort.StringSlice(names)))` -/
def sortNamesRev (ns : List (List Char)) : List (List Char) := sortBy (fun a b => decide (b ≤ a)) ns

/-- internal/utils.go:66-90 `SortMapKeysByIntValue(imap, false)` -/
def sortByRank (rank : List Char → Nat) (ns : List (List Char)) : List (List Char) :=
  (sortVals false (distinct (ns.map rank))).flatMap fun v => sortNamesRev (ns.filter fun n => rank n = v)

/-- lsf.go:386 `s.sortedqs`; `last` is the order in which the map of rankings was iterated -/
def sortedqs (all : List Queue) (order : Crit → List Queue) (last : List (List Char)) : List (List Char) :=
  sortByRank (ranking all order) last

/-! ## choosing a queue -/

/-- `strings.Contains(s, sub)` -/
def contains (sub : List Char) : List Char → Bool
  | [] => sub.isPrefixOf []
  | c :: cs => sub.isPrefixOf (c :: cs) || contains sub cs

/-- lsf.go:717-725 `queueShouldBeAvoided` -/
def queueShouldBeAvoided (q : List Char) (avoid : List (List Char)) : Bool := avoid.any fun a => contains a q

/-- `s.queues[queue][criterion]`: 0 for a queue that is not there -/
def lookup (all : List Queue) (n : List Char) (c : Crit) : Nat :=
  match (usable all).find? (fun q => q.name = n) with
  | some q => value all q c
  | none => 0

/-- what a job asks for; the two strings come from `req.Other` -/
structure Req where
  ram : Nat
  secs : Nat
  queue : Option (List Char)
  avoid : List Char

/-- lsf.go:727-729 -/
def tooLittleMemory (all : List Queue) (n : List Char) (r : Req) : Bool :=
  lookup all n .memlimit > 0 && lookup all n .memlimit < r.ram

/-- lsf.go:731-733 -/
def tooLittleTime (all : List Queue) (n : List Char) (seconds : Nat) : Bool :=
  lookup all n .runlimit > 0 && lookup all n .runlimit < seconds

/-- lsf.go:692-695 -/
def avoidList (r : Req) : List (List Char) := if r.avoid = [] then [] else split ',' r.avoid

/-- lsf.go:697-711, the loop; `none` is ErrImpossible -/
def pick (all : List Queue) (r : Req) : List (List Char) → Option (List Char)
  | [] => none
  | q :: qs =>
    if queueShouldBeAvoided q (avoidList r) then pick all r qs
    else if tooLittleMemory all q r then pick all r qs
    else if tooLittleTime all q (r.secs + 60) then pick all r qs
    else some q

/-- lsf.go:681-714 `determineQueue`; `pref` is `s.sortedqs` -/
def determineQueue (all : List Queue) (pref : List (List Char)) (r : Req) : Option (List Char) :=
  match r.queue with
  | none => pick all r pref
  | some q => if ',' ∈ q then pick all r (split ',' q) else some q

/-- lsf.go:454-461 `maxQueueTime`; 0 is infinite -/
def maxQueueTime (all : List Queue) (pref : List (List Char)) (r : Req) : Nat :=
  match determineQueue all pref r with
  | some q => lookup all q .runlimit
  | none => 0

/-! ## the number of jobs in LSF -/

/-- a line of `bjobs -w`: fields 0, 2 and 6 -/
structure Line where
  jobID : List Char
  stat : List Char
  name : List Char
  deriving DecidableEq, Repr

/-- lsf.go:827-829: the lines that are passed to the callback -/
def passed (pre : List Char) (l : Line) : Bool :=
  !(l.stat = "EXIT".toList) && !(l.stat = "DONE".toList) && pre.isPrefixOf l.name

/-- the regular expression `\[(\d+)\]$` applied to a job name: the digits -/
def arrayIndex (name : List Char) : Option (List Char) :=
  match name.reverse with
  | ']' :: rest =>
    let ds := rest.takeWhile Char.isDigit
    if ds = [] then none
    else match rest.dropWhile Char.isDigit with
      | '[' :: _ => some ds.reverse
      | _ => none
  | _ => none

/-- lsf.go:773-778, the id that is passed to bkill, if there is one -/
def killID (l : Line) : Option (List Char) :=
  if l.jobID.getLast? = some ']' then some l.jobID
  else match arrayIndex l.name with
    | some ds => some (l.jobID ++ '[' :: ds ++ [']'])
    | none => none

/-- lsf.go:770-784, the callback over all the lines: the count and what to kill -/
def checkLoop (max : Nat) : List Line → Nat → List (List Char) → Nat × List (List Char)
  | [], n, ks => (n, ks)
  | l :: ls, n, ks =>
    if n + 1 > max ∧ ¬ l.stat = "RUN".toList then checkLoop max ls n (ks ++ (killID l).toList)
    else checkLoop max ls (n + 1) ks

/-- lsf.go:738-802 `checkCmd` with max ≥ 0: the count returned and the ids bkill was called with -/
def checkCmd (pre : List Char) (max : Nat) (lines : List Line) : Nat × List (List Char) :=
  checkLoop max (lines.filter (passed pre)) 0 []

/-- lsf.go:796-799, `checkCmd` with max < 0 -/
def countCmd (pre : List Char) (lines : List Line) : Nat := (lines.filter (passed pre)).length

/-- a job (or an element of a job array) that LSF has; ids and indices are strings of digits -/
structure Job where
  id : List Char
  idx : Option (List Char)
  stat : List Char
  base : List Char
  deriving DecidableEq, Repr

/-- the name bjobs shows, lsf.go:745-748 -/
def Job.name (j : Job) : List Char :=
  match j.idx with
  | some i => j.base ++ '[' :: i ++ [']']
  | none => j.base

/-- what bkill calls a job -/
def Job.target (j : Job) : List Char :=
  match j.idx with
  | some i => j.id ++ '[' :: i ++ [']']
  | none => j.id

/-- how bjobs shows a job. Some versions of LSF put the array index in the JOBID column (lsf.go:774). -/
def Job.line (inID : Bool) (j : Job) : Line :=
  { jobID := if inID then j.target else j.id, stat := j.stat, name := j.name }

/-- the effect of bkill on what LSF has -/
def bkill (targets : List (List Char)) (js : List Job) : List Job := js.filter fun j => !(targets.contains j.target)

/-- lsf.go:467-490 `schedule` without the choice of a queue: the jobs LSF still has of those it had, and how many more are
submitted in one bsub. That bkill and bsub work is taken for granted. -/
def schedule (inID : Bool) (pre : List Char) (count : Nat) (js : List Job) : List Job × Nat :=
  let r := checkCmd pre count (js.map (Job.line inID))
  (bkill r.2 js, count - r.1)

end Verif.Sched.Lsf
