import Verif.Util.Sort
/-!
# What `wr status` prints

cmd/status.go:116-470: the jobs that were fetched (see `Verif.Cmd.Choose` for which ones) are filtered by host and printed in one of five formats.

Simplified: job keys, host names and times are opaque or numbers. A Go map is a list of pairs without repeated keys; the order of
iterating over it does not matter, because the code sorts the keys. The four maps of running statistics and the map of start and end times
are filled together, so they are one map; the statistics of a group are the list of the values pushed: the numbers printed are the mean and
the standard deviation of these values (package runningvariance, not modelled). Of the details format only what is said about the status,
the statistics, STDOUT, STDERR and the number of the jobs not shown is modelled.
-/
namespace Verif.Cmd.Status
open Verif.Util

/-- jobqueue/job.go:54-67 `JobState*` -/
inductive St | new | delayed | ready | reserved | running | lost | buried | dependent | complete | deleted | deletable | unknown
deriving DecidableEq, Repr

/-- the parts of a job (jobqueue/job.go:116-330) that `wr status` looks at -/
structure Job where
  key : Nat
  rg : List Char
  state : St
  lost : Bool := false
  similar : Nat := 0
  exited : Bool := false
  exit : Int := 0
  reason : List Char := []
  ram : Nat := 0
  disk : Nat := 0
  wall : Nat := 0
  cpu : Nat := 0
  start : Int := 0
  fin : Int := 0
  host : List Char := []
  hostID : List Char := []
  hostIP : List Char := []
  stdout : List Char := []
  stderr : List Char := []
deriving DecidableEq

/-- cmd/status.go:37 `allRepGrps` -/
def allAbove : List Char := ['a', 'l', 'l', ' ', 'a', 'b', 'o', 'v', 'e']

/-- cmd/status.go:143-151: `--host` -/
def byHost (h : List Char) (jobs : List Job) : List Job :=
  if h = [] then jobs else jobs.filter fun j => decide (j.host = h) || decide (j.hostID = h) || decide (j.hostIP = h)

/-- cmd/status.go:136-139: the limit that is asked of the server; formats that do not start with d or j get all jobs -/
def limitFor (format : List Char) (limit : Nat) : Nat :=
  if format.head? = some 'd' ∨ format.head? = some 'j' then limit else 0

/-- the seven numbers of the counts and summary formats -/
structure Nums where
  complete : Nat := 0
  running : Nat := 0
  ready : Nat := 0
  dependent : Nat := 0
  lost : Nat := 0
  delayed : Nat := 0
  buried : Nat := 0
deriving DecidableEq, Repr

/-- cmd/status.go:156-173: one round of the loop of the counts format -/
def countJob (n : Nums) (j : Job) : Nums :=
  match j.state with
  | .delayed => { n with delayed := n.delayed + (1 + j.similar) }
  | .ready => { n with ready := n.ready + (1 + j.similar) }
  | .buried => { n with buried := n.buried + (1 + j.similar) }
  | .reserved => { n with running := n.running + (1 + j.similar) }
  | .running => { n with running := n.running + (1 + j.similar) }
  | .lost => { n with lost := n.lost + (1 + j.similar) }
  | .complete => { n with complete := n.complete + (1 + j.similar) }
  | .dependent => { n with dependent := n.dependent + (1 + j.similar) }
  | _ => n

/-- cmd/status.go:154-174: `-o counts` -/
def counts (jobs : List Job) : Nums := jobs.foldl countJob {}

/-- cmd/status.go:175-186: `-o plain`: the lines, and the exit code -/
def plain (jobs : List Job) : List (Nat × St) × Nat :=
  (jobs.map fun j => (j.key, j.state), if jobs.any (fun j => decide (j.state = .buried)) then 1 else 0)

/-- reading a Go map -/
def get {K V : Type} [DecidableEq K] (k : K) : List (K × V) → Option V
  | [] => none
  | (k', v) :: m => if k' = k then some v else get k m

/-- changing or adding the entry of a key of a Go map -/
def alter {K V : Type} [DecidableEq K] (k : K) (f : Option V → V) : List (K × V) → List (K × V)
  | [] => [(k, f none)]
  | (k', v) :: m => if k' = k then (k', f (some v)) :: m else (k', v) :: alter k f m

/-- Go `delete` on a map -/
def erase {K V : Type} [DecidableEq K] (k : K) : List (K × V) → List (K × V)
  | [] => []
  | (k', v) :: m => if k' = k then erase k m else (k', v) :: erase k m

/-- the values pushed on the running statistics of a group, and `startends` (cmd/status.go:190-194) -/
structure Usage where
  ram : List Nat
  disk : List Nat
  wall : List Nat
  cpu : List Nat
  start : Int
  fin : Int
deriving DecidableEq

/-- cmd/status.go:189-195: the maps of the summary format -/
structure Acc where
  counts : List (List Char × (St → Nat)) := [(allAbove, fun _ => 0)]
  buried : List (List Char × List ((Int × List Char) × List Nat)) := []
  usage : List (List Char × Usage) := []

/-- Go `m[st]++` on a map of counts, made when missing (cmd/status.go:197-199, 204-205) -/
def inc (st : St) (o : Option (St → Nat)) : St → Nat := fun x => (o.getD fun _ => 0) x + if x = st then 1 else 0

/-- cmd/status.go:215-232, 234-251: a complete job is added to the statistics of a group -/
def push (j : Job) : Option Usage → Usage
  | none => { ram := [j.ram], disk := [j.disk], wall := [j.wall], cpu := [j.cpu], start := j.start, fin := j.fin }
  | some u =>
    { ram := u.ram ++ [j.ram], disk := u.disk ++ [j.disk], wall := u.wall ++ [j.wall], cpu := u.cpu ++ [j.cpu]
      start := if j.start < u.start then j.start else u.start
      fin := if u.fin < j.fin then j.fin else u.fin }

/-- cmd/status.go:208-213: the key of a buried job is noted under its exit code and reason (the code joins the two in a string) -/
def bury (j : Job) (o : Option (List ((Int × List Char) × List Nat))) : List ((Int × List Char) × List Nat) :=
  alter (j.exit, j.reason) (fun ks => ks.getD [] ++ [j.key]) (o.getD [])

/-- cmd/status.go:196-253: one round of the loop of the summary format. The code works out `state`, in which reserved is running, but
counts under `job.State`. -/
def sumJob (a : Acc) (j : Job) : Acc :=
  let a := { a with counts := alter allAbove (inc j.state) (alter j.rg (inc j.state) a.counts) }
  match j.state with
  | .buried => { a with buried := alter j.rg (bury j) a.buried }
  | .complete => { a with usage := alter allAbove (push j) (alter j.rg (push j) a.usage) }
  | _ => a

/-- cmd/status.go:255-267: the names of the lines -/
def names (a : Acc) : List (List Char) :=
  let rgs := sortBy (fun x y => decide (x ≤ y)) ((erase allAbove a.counts).map (·.1))
  if 1 < rgs.length then rgs ++ [allAbove] else rgs

/-- a line of the summary format: `usage` is what memory, disk, walltime and cputime are worked out from, `period` the start, the end and
(their difference) the elapsed time, `dead` the identifiers of buried jobs -/
structure Line where
  rg : List Char
  nums : Nums
  usage : Option Usage
  period : Option (Int × Int)
  dead : List ((Int × List Char) × List Nat)
deriving DecidableEq

/-- the order of the bury groups; the code sorts the texts `exitcode.N,"reason"` -/
def leGroup (text : Int → List Char) (x y : (Int × List Char) × List Nat) : Bool :=
  decide (text x.1.1 ++ [',', '"'] ++ x.1.2 ++ ['"'] ≤ text y.1.1 ++ [',', '"'] ++ y.1.2 ++ ['"'])

/-- cmd/status.go:270-299: a line; `none` is the nil dereference of a missing statistic -/
def line (text : Int → List Char) (a : Acc) (rg : List Char) : Option Line :=
  let c := (get rg a.counts).getD fun _ => 0
  let nums : Nums := { complete := c .complete, running := c .running, ready := c .ready, dependent := c .dependent, lost := c .lost, delayed := c .delayed, buried := c .buried }
  let dead := if 0 < c .buried then sortBy (leGroup text) ((get rg a.buried).getD []) else []
  if 0 < c .complete then
    match get rg a.usage with
    | none => none
    | some u => some { rg := rg, nums := nums, usage := some u, period := if 1 < c .complete then some (u.start, u.fin) else none, dead := dead }
  else some { rg := rg, nums := nums, usage := none, period := none, dead := dead }

/-- all of them, or the panic of one -/
def lines (text : Int → List Char) (a : Acc) : List (List Char) → Option (List Line)
  | [] => some []
  | rg :: rgs =>
    match line text a rg, lines text a rgs with
    | some l, some ls => some (l :: ls)
    | _, _ => none

/-- cmd/status.go:187-300: `-o summary` -/
def summary (text : Int → List Char) (jobs : List Job) : Option (List Line) :=
  let a := jobs.foldl sumJob {}
  lines text a (names a)

/-- what the details format says about a job (besides what it says about every job) -/
structure Shown where
  key : Nat
  status : Option St
  problem : Bool
  /-- "Stats": of this run; "Stats of previous attempt" -/
  stats : Option Bool
  std : Option (List Char × List Char)
  details : Option (List Char)
  others : Option Nat
deriving DecidableEq

/-- cmd/status.go:363-380: which status is named -/
def statusOf : St → Option St
  | .delayed => some .delayed
  | .ready => some .ready
  | .dependent => some .dependent
  | .buried => some .buried
  | .reserved => some .running
  | .running => some .running
  | .lost => some .lost
  | .complete => some .complete
  | _ => none

/-- cmd/status.go:363-451: `-o details`; `extra` is false in -f mode (cmd/status.go:141) -/
def detail (extra : Bool) (j : Job) : Shown :=
  { key := j.key
    status := statusOf j.state
    problem := decide (j.reason ≠ [])
    stats :=
      if j.exited then some (decide (j.state = .complete))
      else if j.state = .running ∨ j.state = .lost then some true
      else none
    std := if j.exited ∧ extra ∧ j.exit ≠ 0 then some (j.stdout, j.stderr) else none
    details := if ¬ j.exited ∧ ¬ (j.state = .running ∨ j.state = .lost) ∧ extra ∧ j.stderr ≠ [] then some j.stderr else none
    others := if 0 < j.similar then some j.similar else none }

/-- cmd/status.go:301-451: `-o details` -/
def details (extra : Bool) (jobs : List Job) : List Shown := jobs.map (detail extra)

/-- jobqueue/job.go:903-975 `ToStatus`: the state of the JSON format; `Started`/`Ended` are left out for times that are zero (`none`) -/
def jsonState (j : Job) : St := if j.state = .running ∧ j.lost then .lost else j.state

end Verif.Cmd.Status
