/-!
# Model of how the ready added callback asks for runners (`/repo/jobqueue/server.go:1318-1576, 2842-2939`)

Scheduler groups are numbers.  `cap` is what the limiter says about the limit groups of a scheduler group, negative for no
limit; it is asked once per group in each run of the callback (server.go:1497-1506).

Simplifications: requirements of groups are left out (how they come about is modelled in `LearnReq`); the goroutines that tell
the scheduler run one after another, each to its end (their interleaving with `decrementGroupCount` is in `Sgroup`).
-/

namespace Verif.Server.Rac

/-- A ready job: its scheduler group and priority. -/
structure Job where
  group : Nat
  prio : Nat
deriving DecidableEq, Repr

/-- server.go:263-270 sgroup -/
structure Group where
  name : Nat
  count : Nat := 0
  skipped : Nat := 0
  prio : Nat := 0
deriving DecidableEq, Repr

/-- Look a group up in the map. -/
def get (n : Nat) (gs : List Group) : Option Group := gs.find? (·.name = n)

/-- Change the entry of a map, which is `new` if there is none yet. -/
def upd (gs : List Group) (n : Nat) (new : Group) (f : Group → Group) : List Group :=
  if gs.any (·.name = n) then gs.map fun g => if g.name = n then f g else g else gs ++ [f new]

/-- server.go:1485-1518: a ready job is counted, or skipped because of the limit -/
def countOne (cap : Nat → Int) (gs : List Group) (j : Job) : List Group :=
  upd gs j.group { name := j.group } fun g =>
    if cap j.group ≥ 0 ∧ (g.count : Int) = cap j.group then { g with skipped := g.skipped + 1 }
    else { g with count := g.count + 1, prio := if j.prio > g.prio then j.prio else g.prio }

/-- server.go:1528-1552: a running job is counted -/
def runOne (prev : List Group) (gs : List Group) (n : Nat) : List Group :=
  upd gs n (match get n prev with
    | some g => { g with count := 0 }
    | none => { name := n }) fun g => { g with count := g.count + 1 }

/-- server.go:1318-1552: the groups that are needed -/
def groups (cap : Nat → Int) (prev : List Group) (ready : List Job) (running : List Nat) : List Group :=
  running.foldl (runOne prev) (ready.foldl (countOne cap) [])

/-- server.go:1554-1569: groups that are not needed any more are told as nought -/
def unneeded (prev gs : List Group) : List Group :=
  (prev.filter fun g => !gs.any (·.name = g.name)).map fun g => { g with count := 0 }

/-- server.go:1554-1575: all that the scheduler is told, and the groups that are kept for the next time -/
def rac (cap : Nat → Int) (prev : List Group) (ready : List Job) (running : List Nat) : List Group × List Group :=
  let gs := groups cap prev ready running
  (unneeded prev gs ++ gs, gs)

/-! ## What scheduleRunners does with the scheduler's answer -/

/-- The scheduler's answer. -/
inductive Answer
  | ok
  /-- ErrImpossible -/
  | impossible
  /-- any other error -/
  | error
deriving DecidableEq, Repr

/-- A job in the queue: its reserve group, if it is ready, if it is buried, and if for want of resources. -/
structure QJob where
  group : Nat
  ready : Bool
  buried : Bool := false
  noRes : Bool := false
deriving DecidableEq, Repr

/-- server.go:2850-2882: the jobs of the queue, if the callback is triggered, and if the schedule is tried again later -/
def answered (n : Nat) (jobs : List QJob) : Answer → List QJob × Bool × Bool
  | .ok => (jobs, false, false)
  | .impossible => (jobs.map fun j =>
      if j.group = n ∧ j.ready then { j with ready := false, buried := true, noRes := true } else j, true, false)
  | .error => (jobs, false, true)

/-! ## The scheduler over time -/

/-- The groups by identity, which of them are those of the last run of the callback, which are to be told again, and what
the scheduler was told last for each scheduler group. -/
structure St where
  objs : List Group := []
  prev : List Nat := []
  retries : List Nat := []
  told : Nat → Option Nat := fun _ => none

/-- What happens; `fails` says for which groups the scheduler gives an error. -/
inductive Ev
  /-- a run of the callback -/
  | rac (cap : Nat → Int) (ready : List Job) (running : List Nat) (fails : Nat → Bool)
  /-- decrementGroupCount (server.go:2911-2939) -/
  | drop (n : Nat) (d : Nat) (fails : Bool)
  /-- the time of the first schedule that is to be tried again has come (server.go:2886-2904) -/
  | retry (fails : Bool)

/-- server.go:2842-2907 scheduleRunners on the group with an identity -/
def tell (s : St) (i : Nat) (fails : Bool) : St :=
  match s.objs[i]? with
  | none => s
  | some g => if fails then { s with retries := s.retries ++ [i] }
    else { s with told := fun n => if n = g.name then some g.count else s.told n }

/-- Tell the scheduler about new groups, and remember where they are. -/
def tellNew (s : St) (fails : Nat → Bool) : List Group → St × List Nat
  | [] => (s, [])
  | g :: gs =>
    let i := s.objs.length
    let s1 := tell { s with objs := s.objs ++ [g] } i (fails g.name)
    let x := tellNew s1 fails gs
    (x.1, i :: x.2)

/-- server.go:299-325 decrement: the group after it, and if its count changed -/
def decrement (g : Group) (d : Nat) : Group × Bool :=
  if d < 1 then (g, false)
  else if g.skipped > 0 ∧ d ≤ g.skipped then ({ g with skipped := g.skipped - d }, false)
  else
    let c := g.count - (d - g.skipped)
    ({ g with count := c, skipped := 0 }, decide (c ≠ g.count))

/-- The groups of the last run. -/
def St.book (s : St) : List Group := s.prev.filterMap (s.objs[·]?)

/-- One event. -/
def step (s : St) : Ev → St
  | .rac cap ready running fails =>
    let gs := groups cap s.book ready running
    let x := tellNew s fails (unneeded s.book gs)
    let y := tellNew x.1 fails gs
    { y.1 with prev := y.2 }
  | .drop n d fails =>
    match s.prev.find? fun i => (s.objs[i]?.map (·.name)) = some n with
    | none => s
    | some i =>
      match s.objs[i]? with
      | none => s
      | some g =>
        let x := decrement g d
        let s1 := { s with objs := s.objs.set i x.1 }
        if x.2 then (tellNew s1 (fun _ => fails) [x.1]).1 else s1
  | .retry fails =>
    match s.retries with
    | [] => s
    | i :: rs => tell { s with retries := rs } i fails

/-- Any number of events. -/
def run (s : St) : List Ev → St
  | [] => s
  | e :: es => run (step s e) es

end Verif.Server.Rac
