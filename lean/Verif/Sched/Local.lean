/-!
# The local scheduler (jobqueue/scheduler/local.go)

Threads: calls of `schedule`, activations of `processQueue`, one goroutine for each run of a command, and recovered
processes. Their steps, which end where the code releases a lock that matters, interleave in any way.

Simplifications. The queue's key is the command (the code uses a 128 bit hash of it, scheduler.go:424). Which item
`queue.Reserve` returns is left open, so priorities and sizes play no part and any order is covered. Cores are exact
numbers of thousandths of a core (the code uses float64). `cleanup`, the ticker that calls `processQueue` and the
logging are left out; `processQueue` may be called at any time.
-/
namespace Verif.Sched.Local

/-- scheduler.go:86-95 `Requirements`, as far as the local scheduler looks at them; cores in thousandths -/
structure Req where
  ram : Int
  cores : Int
  deriving DecidableEq, Repr

/-- local.go:164-171 `job` -/
structure Job where
  cmd : String
  req : Req
  count : Int
  dec : Int := 0
  deriving DecidableEq, Repr

/-- How far a goroutine of local.go:654-694 is: before runCmd reserved resources (807), with the command running,
after the resources were given back (858), failed to start (803), or ended (674). -/
inductive Phase where
  | starting | using | freed | failed | gone
  deriving DecidableEq, Repr

structure Thread where
  job : Nat
  cmd : String
  req : Req
  phase : Phase := .starting
  deriving DecidableEq, Repr

/-- local.go:110-142 `local`. `jobs` are the job objects made so far, `queue` the items of the queue, `pending` is a call
of `schedule` that found an item and holds `s.mutex` (local.go:291-296), `procs` are the activations of `processQueue`,
each with the runs whose reservation it waits for. -/
structure S where
  maxRAM : Int
  maxCores : Int
  ram : Int := 0
  cores : Int := 0
  zeroCores : Int := 0
  jobs : List Job := []
  queue : String → Option Nat := fun _ => none
  running : String → Int := fun _ => 0
  threads : List Thread := []
  recovered : List Req := []
  pending : Option (String × Nat × Int) := none
  processing : Bool := false
  recall : Bool := false
  procs : List (List Nat) := []

/-- What a user of the scheduler sees: a count was asked for, a run of the command begins, ends, or fails to start. -/
inductive Obs where
  | asked (cmd : String) (n : Int)
  | began (cmd : String)
  | ended (cmd : String)
  | broke (cmd : String)
  deriving DecidableEq, Repr

inductive Ev where
  | schedule (cmd : String) (req : Req) (n : Int)
  | update
  | begin
  | pick (p : Nat) (cmd : String)
  | finish (p : Nat)
  | reserve (t : Nat)
  | fail (t : Nat)
  | free (t : Nat)
  | done (t : Nat)
  | recover (req : Req)
  | exited (i : Nat)
  | timeout (p : Nat)
  deriving DecidableEq, Repr

/-- a Go map with one entry changed -/
def put {β : Type} (m : String → β) (k : String) (v : β) : String → β := fun x => if x = k then v else m x

/-- `int(math.Floor(a / b))` for the float64 values of `a` and `b`. On amd64, the only architecture supported
(local.go:173-174), the conversion of an infinity or a NaN gives the smallest int64. -/
def floorDiv (a b : Int) : Int := if b = 0 then -9223372036854775808 else Int.fdiv a b

/-- local.go:500-505 `reqCheck`: false is `ErrImpossible`. -/
def reqCheck (s : S) (r : Req) : Bool := ¬ (s.maxRAM < r.ram ∨ s.maxCores < -(Int.fdiv (-r.cores) 1000))

/-- internal/utils.go:49 `ZeroCoreMultiplier` -/
def zeroCoreMultiplier : Int := 2

/-- local.go:740-777 `canCount`. -/
def canCount (s : S) (r : Req) : Int :=
  let c := floorDiv (s.maxRAM - s.ram) r.ram
  let c := if c < 0 then 0 else c
  if 1 ≤ c then
    let c2 := if r.cores = 0 then s.maxCores * zeroCoreMultiplier - s.zeroCores
      else floorDiv (s.maxCores * 1000 - s.cores) r.cores
    if c2 < c then (if c2 < 0 then 0 else c2) else c
  else c

/-- local.go:628-630 -/
def atMost (can should : Int) : Int := if can > should then should else can

/-- local.go:671-676 a run that ended is counted -/
def countRun (j : Job) : Job := if 0 < j.dec then { j with dec := j.dec - 1 } else { j with count := j.count - 1 }

/-- local.go:300-305 the decrements that a lower count makes necessary -/
def decrements (n running : Int) : Int := if n < running then running - n else 0

/-- local.go:519-535 `removeKey` -/
def removeKey (s : S) (cmd : String) : S := { s with queue := put s.queue cmd none }

/-- local.go:647-653 the goroutines started by one round of the loop: `n` runs of job `j`. -/
def start (s : S) (p : Nat) (cmd : String) (j : Nat) (r : Req) (n : Nat) : S :=
  { s with
    running := put s.running cmd (s.running cmd + n)
    threads := s.threads ++ List.replicate n { job := j, cmd := cmd, req := r }
    procs := s.procs.set p ((List.range n).map (s.threads.length + ·)) }

/-- local.go:812-817, 437-442: resources are taken -/
def take (s : S) (r : Req) : S :=
  if r.cores = 0 then { s with ram := s.ram + r.ram, zeroCores := s.zeroCores + 1 }
  else { s with ram := s.ram + r.ram, cores := s.cores + r.cores }

/-- local.go:843-848, 469-474: resources are given back -/
def giveBack (s : S) (r : Req) : S :=
  if r.cores = 0 then { s with ram := s.ram - r.ram, zeroCores := s.zeroCores - 1 }
  else { s with ram := s.ram - r.ram, cores := s.cores - r.cores }

def setPhase (s : S) (i : Nat) (t : Thread) (ph : Phase) : S := { s with threads := s.threads.set i { t with phase := ph } }

/-- is the run past the point where resources are reserved, or did it fail? -/
def reservedSent (s : S) (i : Nat) : Bool := (s.threads[i]?.map (·.phase)) ≠ some .starting

/-- One step, with what a user sees of it; `none` if the step is not possible. -/
def step (s : S) : Ev → Option (S × List Obs)
  -- local.go:247-294: a new item is added to the queue, or the existing item found; s.mutex is held from 285 on
  | .schedule cmd r n =>
    if n ≠ 0 ∧ ¬ reqCheck s r then some (s, [])
    else if s.pending ≠ none then none
    else match s.queue cmd with
      | none => some ({ s with jobs := s.jobs ++ [{ cmd := cmd, req := r, count := n }], queue := put s.queue cmd (some s.jobs.length) },
          [.asked cmd n])
      | some j => some ({ s with pending := some (cmd, j, n) }, [])
  -- local.go:295-330: the existing item's job is changed; s.mutex is released
  | .update => match s.pending with
    | none => none
    | some (cmd, j, n) => match s.jobs[j]? with
      | none => none
      | some job =>
        let s1 := { s with pending := none, jobs := s.jobs.set j { job with count := n, dec := decrements n (s.running cmd) } }
        some (if n = 0 then removeKey s1 cmd else s1, [.asked cmd n])
  -- local.go:541-556
  | .begin =>
    if s.pending ≠ none then none
    else if s.processing then some ({ s with recall := true }, [])
    else some ({ s with processing := true, procs := s.procs ++ [[]] }, [])
  -- local.go:595-731, one round of the loop, which begins when the runs of the round before have reserved their resources
  | .pick p cmd => match s.procs[p]?, s.queue cmd with
    | some waits, some j =>
      if ¬ waits.all (reservedSent s) then none
      else match s.jobs[j]? with
        | none => none
        | some job =>
          if job.count = 0 ∧ s.running cmd = 0 then some (removeKey s cmd, [])
          else
            let should := job.count - s.running cmd
            if should ≤ 0 then some (s, [])
            else
              let can := atMost (canCount s job.req) should
              if can ≤ 0 then some (s, [])
              else some (start s p cmd j job.req can.toNat, List.replicate can.toNat (.began cmd))
    | _, _ => none
  -- local.go:565-591, after the loop
  | .finish p => match s.procs[p]? with
    | none => none
    | some waits =>
      if s.pending ≠ none ∨ ¬ waits.all (reservedSent s) then none
      else some ({ s with processing := false, recall := false, procs := s.procs.eraseIdx p }, [])
  -- local.go:799-820: the command was started, resources are reserved
  | .reserve t => match s.threads[t]? with
    | some th => if th.phase = .starting then some (setPhase (take s th.req) t th .using, []) else none
    | none => none
  -- local.go:800-804: the command could not be started
  | .fail t => match s.threads[t]? with
    | some th => if th.phase = .starting then some (setPhase s t th .failed, []) else none
    | none => none
  -- local.go:826-850: the command ended, resources are given back
  | .free t => match s.threads[t]? with
    | some th => if th.phase = .using then some (setPhase (giveBack s th.req) t th .freed, []) else none
    | none => none
  -- local.go:661-682: the run is counted
  | .done t => match s.threads[t]? with
    | some th =>
      if th.phase = .freed ∨ th.phase = .failed then
        match s.jobs[th.job]? with
        | none => none
        | some job =>
          let s1 := { setPhase s t th .gone with
            running := put s.running th.cmd (if s.running th.cmd - 1 ≤ 0 then 0 else s.running th.cmd - 1) }
          if th.phase = .freed then
            let s2 := { s1 with jobs := s1.jobs.set th.job (countRun job) }
            some (if (countRun job).count ≤ 0 then removeKey s2 th.cmd else s2, [.ended th.cmd])
          else some (s1, [.broke th.cmd])
      else none
    | none => none
  -- local.go:434-443: a process is found that runs a command of an earlier life of the manager
  | .recover r => some ({ take s r with recovered := s.recovered ++ [r] }, [])
  -- local.go:465-475: that process has exited
  | .exited i => match s.recovered[i]? with
    | some r => some ({ giveBack s r with recovered := s.recovered.eraseIdx i }, [])
    | none => none
  -- local.go:716-724: after a minute, no more waiting for reservations
  | .timeout p => if p < s.procs.length then some ({ s with procs := s.procs.set p [] }, []) else none

/-- local.go:175-219 `initialize` -/
def init (maxRAM maxCores : Int) : S := { maxRAM := maxRAM, maxCores := maxCores }

/-- A history and what is seen of it. -/
def run (s : S) : List Ev → Option (S × List Obs)
  | [] => some (s, [])
  | e :: h => (step s e).bind fun (s', o) => (run s' h).map fun (s'', o') => (s'', o ++ o')

end Verif.Sched.Local
