/-
Commands on cloud servers (C126): running them, servers that go bad, cleaning
up, and the servers of commands that an earlier manager started.

Simplifications: the space of a server is compared in cores, RAM and disk as
natural numbers (C45 has the details of Allocate and Release, C69 the countdown
of idle servers, which is the event `destroy` here); which of the servers with
space is picked is arbitrary, as in the code, which goes through a map; all
servers match what commands ask for; the tests of a server and its allocation
are one step, and so are the last test of spawn() for cleanup() and what follows
it; the call of the user's function for bad servers, which is in a goroutine, is
an entry of `notes`.
-/
namespace Verif.Sched.CloudRun

inductive Comp | cores | ram | disk
deriving DecidableEq, Repr

abbrev Res := Comp → Nat

inductive Loc | nowhere | spawned | usable
deriving DecidableEq, Repr

/-- cloud/server.go 80-120: what is used of a Server; `perm`: PermanentProblem is not
empty, `gone`: Destroyed() -/
structure Srv where
  cap : Res
  used : Res
  bad : Bool
  perm : Bool
  gone : Bool

inductive Note | bad (i : Nat) | good (i : Nat)
deriving DecidableEq, Repr

/-- Server 0 is localhost.  `loc`: in s.spawnedServers or s.servers; `runs`: the
commands that run, with their server and what they were allocated. -/
structure S where
  srv : Nat → Srv
  loc : Nat → Loc
  runs : List (Nat × Res)
  cleaned : Bool
  notes : List Note

def zero : Res := fun _ => 0

/-- scheduler/openstack.go 340-354 initialize: at first there is localhost -/
def init (cap : Res) : S :=
  ⟨fun i => ⟨if i = 0 then cap else zero, zero, false, false, false⟩, fun i => if i = 0 then .usable else .nowhere, [], false, []⟩

def set (s : S) (i : Nat) (v : Srv) : S := { s with srv := fun j => if j = i then v else s.srv j }

/-- cloud/server.go 466-475 checkSpace: there is space -/
def fits (v : Srv) (r : Res) : Bool :=
  !v.gone && decide (v.used .cores + r .cores ≤ v.cap .cores) && decide (v.used .ram + r .ram ≤ v.cap .ram) &&
    decide (v.used .disk + r .disk ≤ v.cap .disk)

inductive Ev
  | spawned (i : Nat) (cap : Res)    -- spawn() ends with a new server
  | update                           -- stateUpdate(), at the start of processQueue()
  | check (i : Nat) (alive : Bool)   -- its goroutine comes to a server
  | start (i : Nat) (r : Res)        -- runCmd() picks a server
  | finish (k : Nat) (ok : Bool)     -- the k-th of the commands ends
  | destroy (i : Nat)                -- Destroy(), by a user or because it was idle
  | cleanup

/-- scheduler/openstack.go 1116-1214 runCmd, after the command: `v` is its server -/
def ended (v : Srv) (i : Nat) (r : Res) (ok : Bool) : Srv × List Note :=
  let v' := if ¬ ok ∧ i ≠ 0 ∧ ¬ v.gone then { v with bad := true, perm := true } else v
  let n := if ¬ ok ∧ i ≠ 0 ∧ ¬ v.gone then [Note.bad i] else []
  (if ¬ v'.gone ∧ ¬ v'.perm then { v' with used := fun c => v'.used c - r c } else v', n)

def step (s : S) : Ev → Option S
  -- scheduler/openstack.go 1017-1051: destroyed at once if cleaned up
  | .spawned i cap =>
    if i ≠ 0 ∧ s.loc i = .nowhere ∧ (s.srv i).cap .cores = 0 ∧ ¬ (s.srv i).gone ∧ 0 < cap .cores then
      if s.cleaned then some (set s i ⟨cap, zero, false, false, true⟩)
      else some { set s i ⟨cap, zero, false, false, false⟩ with loc := fun j => if j = i then .spawned else s.loc j }
    else none
  -- scheduler/openstack.go 1222-1249
  | .update =>
    if s.cleaned then none
    else some { s with loc := fun j =>
      let l := if s.loc j = .spawned then Loc.usable else s.loc j
      if l = .usable ∧ j ≠ 0 ∧ (s.srv j).gone then .nowhere else l }
  -- scheduler/openstack.go 1259-1281; cloud/server.go 1219-1247, 1361-1398
  | .check i alive =>
    let v := s.srv i
    if i ≠ 0 ∧ s.loc i = .usable then
      if v.gone then some s
      else if v.bad then
        if alive ∧ ¬ v.perm then some { set s i { v with bad := false } with notes := s.notes ++ [.good i] } else some s
      else if ¬ alive then some { set s i { v with bad := true } with notes := s.notes ++ [.bad i] }
      else some s
    else none
  -- scheduler/openstack.go 1123-1165
  | .start i r =>
    let v := s.srv i
    if ¬ s.cleaned ∧ s.loc i = .usable ∧ ¬ v.bad ∧ fits v r then
      some { set s i { v with used := fun c => v.used c + r c } with runs := s.runs ++ [(i, r)] }
    else none
  | .finish k ok =>
    match s.runs[k]? with
    | some (i, r) =>
      let (v, n) := ended (s.srv i) i r ok
      some { set s i v with runs := s.runs.eraseIdx k, notes := s.notes ++ n }
    | none => none
  | .destroy i => if i ≠ 0 ∧ s.loc i ≠ .nowhere then some (set s i { s.srv i with gone := true }) else none
  -- scheduler/openstack.go 1450-1505
  | .cleanup =>
    some { s with
      cleaned := true
      srv := fun j => if j ≠ 0 ∧ s.loc j ≠ .nowhere then { s.srv j with gone := true } else s.srv j
      loc := fun j => if j = 0 then s.loc j else .nowhere }

def run (s : S) : List Ev → Option S
  | [] => some s
  | e :: es => (step s e).bind fun s' => run s' es

/-! ## servers of an earlier manager -/

/-- scheduler/openstack.go 1338-1343: what is looked for on a server: the first two words
of the command -/
def words : List Char → List (List Char)
  | [] => [[]]
  | c :: cs => if c = ' ' then [] :: words cs else match words cs with
    | w :: ws => (c :: w) :: ws
    | [] => [[c]]

def pattern (cmd : List Char) : List Char :=
  match words cmd with
  | w :: w2 :: _ => w ++ [' '] ++ w2
  | [w] => w
  | [] => []

/-- The recovered servers: `procs` is the number of old commands that still run
on a host, `mon` are the goroutines that look at hosts, `lost` is the list of
hosts destroyed with the number of commands that ran there. -/
structure R where
  known : Nat → Bool
  gone : Nat → Bool
  procs : Nat → Nat
  recovered : Nat → Bool
  mon : List (Option Nat)
  lost : List (Nat × Nat)
  stopped : Bool

inductive REv
  | recover (h : Nat) (ssh : Bool)   -- Recover(); `ssh`: the host can be reached with the user name given
  | tick (m : Nat) (ssh : Bool)      -- a goroutine's time has come
  | ends (h : Nat)                   -- a command ends
  | stop                             -- cleanup()
  | quit (m : Nat)                   -- a goroutine sees it
deriving DecidableEq, Repr

/-- cloud/server.go 1271-1359 Destroy: once -/
def kill (s : R) (h : Nat) : R :=
  if s.gone h then s
  else { s with gone := fun x => if x = h then true else s.gone x, lost := s.lost ++ [(h, s.procs h)],
                procs := fun x => if x = h then 0 else s.procs x }

/-- scheduler/openstack.go 1307-1393 recover; `ttd` is the time servers are kept -/
def rstep (ttd : Nat) (s : R) : REv → Option R
  | .recover h ssh =>
    if ¬ s.known h then some s
    else if ttd = 0 then some s
    else if s.gone h ∨ ¬ ssh then some (kill s h)
    else if s.recovered h then some s
    else some { s with mon := s.mon ++ [some h], recovered := fun x => if x = h then true else s.recovered x }
  | .tick m ssh =>
    match s.mon[m]? with
    | some (some h) =>
      if ssh ∧ ¬ s.gone h ∧ s.procs h ≠ 0 then some s
      else some { kill s h with mon := s.mon.set m none }
    | _ => none
  | .ends h => if s.procs h ≠ 0 then some { s with procs := fun x => if x = h then s.procs h - 1 else s.procs x } else none
  | .stop => some { s with stopped := true }
  | .quit m =>
    match s.mon[m]? with
    | some (some _) => if s.stopped then some { s with mon := s.mon.set m none } else none
    | _ => none

def rrun (ttd : Nat) (s : R) : List REv → Option R
  | [] => some s
  | e :: es => (rstep ttd s e).bind fun s' => rrun ttd s' es

def rinit (known : Nat → Bool) (procs : Nat → Nat) : R := ⟨known, fun _ => false, procs, fun _ => false, [], [], false⟩

end Verif.Sched.CloudRun
