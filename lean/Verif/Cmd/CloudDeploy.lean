/-!
# `wr cloud deploy` and `wr cloud teardown` (cmd/cloud.go:242-452, 477-639, 825-1170)

What happens to the database of the manager. Only production deployments are modelled (a development one does not keep its database). Cloud
resources are those of C115 and C116; here there is a head node or there is none. A database is the list of the things it recorded; if a backup
in S3 is configured it is as new as the database of the manager that last ran (C89).
-/
namespace Verif.Cmd.CloudDeploy

abbrev Hist := List Nat

/-- the head node: `./.wr_production/db` there, and if the manager runs -/
structure Node where
  db : Option Hist
  running : Bool
  deriving DecidableEq

structure World where
  /-- `config.ManagerDBFile` -/
  loc : Option Hist
  /-- the backup in S3 -/
  bk : Option Hist
  node : Option Node
  /-- all that was ever recorded -/
  done : Hist
  deriving DecidableEq

def World.init : World := { loc := none, bk := none, node := none, done := [] }

/-- db.go:143-362 `initDB`: the database a manager starts with; the backup is used if there is no database -/
def startDb (db bk : Option Hist) : Hist := db.getD (bk.getD [])

/-- what the manager knows: the one in the cloud, or one that is started locally -/
def history (w : World) : Hist :=
  match w.node with
  | some n => startDb n.db w.bk
  | none => startDb w.loc w.bk

/-- what is done by `bootstrapOnRemote` and after it -/
inductive Stage where
  | exe
  | db
  | config
  | chmod
  | resources
  | keyWrite
  | keyUpload
  | certs
  | env
  | scripts
  | start
  | token
  | forward
  | connect
  deriving DecidableEq

def stages : List Stage :=
  [.exe, .db, .config, .chmod, .resources, .keyWrite, .keyUpload, .certs, .env, .scripts, .start, .token, .forward, .connect]

/-- cmd/cloud.go:830-1112, 403-421: if a failure means that all is torn down; `existing` is `wrMayHaveStarted` -/
def fatal (existing : Bool) : Stage → Bool
  | .config => true
  | .keyWrite => true
  | .env => true
  | .start => true
  | .token => true
  | .forward => true
  | .connect => true
  | _ => !existing

/-- cmd/cloud.go:941-1103: what is only done if the manager is not `alreadyStarted` -/
def onlyNew : Stage → Bool
  | .env => true
  | .scripts => true
  | .start => true
  | _ => false

def onNode (f : Node → Node) (w : World) : World := { w with node := w.node.map f }

/-- what a stage does: cmd/cloud.go:844-855 copies the local database if there is no backup in S3; 1047-1050 starts the manager -/
def effect (s3 : Bool) (st : Stage) (w : World) : World :=
  match st with
  | .db =>
    if s3 then w
    else match w.loc with
      | none => w
      | some h => onNode (fun n => { n with db := some h }) w
  | .start => onNode (fun n => { db := some (startDb n.db w.bk), running := true }) w
  | _ => w

/-- a manager that runs cannot be started again -/
def cannot (st : Stage) (w : World) : Bool := decide (st = .start) && (w.node.map (·.running)).getD false

/-- cmd/cloud.go:825-1112 `bootstrapOnRemote` and 400-421: `fails` says which stages fail -/
def boot (s3 : Bool) (fails : Stage → Bool) (existing started : Bool) : List Stage → World → World
  | [], w => w
  | st :: rest, w =>
    if started && onlyNew st then boot s3 fails existing started rest w
    else if fails st || cannot st w then
      if fatal existing st then { w with node := none } else boot s3 fails existing started rest w
    else boot s3 fails existing started rest (effect s3 st w)

structure DeployEnv where
  /-- the manager can be connected to when the ports are forwarded again, within 2 s -/
  connects : Bool
  /-- `wr manager status` on the node works -/
  status : Bool
  /-- the node could be made -/
  spawns : Bool
  fails : Stage → Bool

/-- cmd/cloud.go:320-421 -/
def deploy (s3 : Bool) (e : DeployEnv) (w : World) : World :=
  match w.node with
  | none => if e.spawns then boot s3 e.fails false false stages { w with node := some { db := none, running := false } } else w
  | some n => if n.running && e.connects then w else boot s3 e.fails true (n.running && e.status) stages w

structure TearEnv where
  /-- the forwarder runs, and the manager can be connected to if it runs -/
  connects : Bool
  renames : Bool
  backup : Bool
  shutdown : Bool
  /-- the cloud resources can be deleted -/
  removes : Bool
  deriving DecidableEq

def remove (e : TearEnv) (w : World) : World := if e.removes then { w with node := none } else w

/-- cmd/cloud.go:492-609 `wr cloud teardown`; `die` leaves the world as it is then -/
def teardown (s3 force : Bool) (e : TearEnv) (w : World) : World :=
  match w.node with
  | none => w
  | some n =>
    if n.running && e.connects then
      let w1 := if s3 then (if e.renames then { w with loc := none } else w) else if e.backup then { w with loc := n.db } else w
      if !s3 && !e.backup && !force then w
      else if e.shutdown then remove e (onNode (fun n => { n with running := false }) w1)
      else if force then remove e w1 else w1
    else if force then remove e w else w

inductive Ev where
  /-- the manager in the cloud records something -/
  | work (x : Nat)
  /-- a manager that is started locally records something -/
  | localWork (x : Nat)
  /-- the manager in the cloud ends: it is drained or stopped, or crashes -/
  | ends
  /-- the head node is lost -/
  | dies
  | deploy (e : DeployEnv)
  | teardown (force : Bool) (e : TearEnv)

def step (s3 : Bool) (w : World) : Ev → Option World
  | .work x =>
    match w.node with
    | some n =>
      if n.running then
        let h := startDb n.db w.bk ++ [x]
        some { w with node := some { n with db := some h }, bk := if s3 then some h else w.bk, done := w.done ++ [x] }
      else none
    | none => none
  | .localWork x =>
    match w.node with
    | some _ => none
    | none =>
      let h := startDb w.loc w.bk ++ [x]
      some { w with loc := some h, bk := if s3 then some h else w.bk, done := w.done ++ [x] }
  | .ends => if w.node.isSome then some (onNode (fun n => { n with running := false }) w) else none
  | .dies => some { w with node := none }
  | .deploy e => some (deploy s3 e w)
  | .teardown force e => some (teardown s3 force e w)

def run (s3 : Bool) : World → List Ev → Option World
  | w, [] => some w
  | w, e :: es => (step s3 w e).bind fun w' => run s3 w' es

/-! ## The forwarders -/

structure Fwd where
  /-- what is in `fm.pid` -/
  file : Option Nat
  /-- processes that run on the user's machine, and if they are an ssh that we started -/
  procs : List (Nat × Bool)
  /-- those that `wr` killed -/
  killed : List (Nat × Bool)
  deriving DecidableEq

def Fwd.init : Fwd := { file := none, procs := [], killed := [] }

/-- cmd/cloud.go:1138-1159 `checkProcess` -/
def check (s : Fwd) : Option Nat := s.file.filter fun p => decide (p ∈ s.procs.map (·.1))

/-- cmd/cloud.go:1161-1167 `killProcess` -/
def kill (s : Fwd) (p : Nat) : Fwd :=
  { s with procs := s.procs.filter (fun x => x.1 ≠ p), killed := s.killed ++ s.procs.filter fun x => x.1 = p }

inductive FEv where
  /-- `startForwarding`; a new process would have this pid -/
  | forward (p : Nat)
  /-- the manager cannot be connected to: lines 343-366; or it is torn down: 623-637 -/
  | cleanup
  /-- a process ends -/
  | gone (p : Nat)
  /-- the user starts another program, with this pid -/
  | other (p : Nat)
  deriving DecidableEq

/-- cmd/cloud.go:1115-1136 `startForwarding`, 343-354, 625-631 -/
def fstep (s : Fwd) : FEv → Option Fwd
  | .forward p =>
    if (check s).isSome then some s
    else if p ∈ s.procs.map (·.1) then none else some { s with file := some p, procs := (p, true) :: s.procs }
  | .cleanup =>
    match check s with
    | some p => some { kill s p with file := none }
    | none => some { s with file := none }
  | .gone p => some { s with procs := s.procs.filter fun x => x.1 ≠ p }
  | .other p => if p ∈ s.procs.map (·.1) then none else some { s with procs := (p, false) :: s.procs }

def frun : Fwd → List FEv → Option Fwd
  | s, [] => some s
  | s, e :: es => (fstep s e).bind fun s' => frun s' es

end Verif.Cmd.CloudDeploy
