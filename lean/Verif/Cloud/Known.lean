import Verif.Cloud.Deploy
/-
The servers with an external IP that a deployment knows: cloud/cloud.go:332-375 (New), 431-450 (Deploy), 660-745 (Spawn), 751-770
(CheckServer), 787-800 (DestroyServer), 806-810 (Servers), 819-829 (HeadNode), 881-946 (TearDown and the resources file).

One process at a time has the resources; within it calls run at the same time: each call that changes what is known changes the memory under
the lock and saves the file in a second step. Simplifications: saving is one step that works or fails (the file that is cut off by a kill is
in `Verif.Cloud.Deploy`); a call of the cloud that fails has no effect here (a server that goes away though its destruction reported an error
is the event `vanish`); TearDown() of a process outside the cloud, in which every call works; only ids and the mark of the head node are kept
of servers; maps are lists in order of insertion.
-/
namespace Verif.Cloud.Known

/-- a server as it is recorded: server.go:145 `IsHeadNode` -/
structure Rec where
  id : Nat
  head : Bool
deriving DecidableEq, Repr

/-- a server of ours in the cloud; `active` is the status ACTIVE -/
structure Vm where
  id : Nat
  active : Bool := true
deriving DecidableEq, Repr

/-- what happened, in the order in which the memory or the file changed -/
inductive Said where
  | opened
  | deployed
  | deployFailed
  /-- a server with external IP was spawned -/
  | spawned (id : Nat)
  /-- a server was destroyed or found not to work -/
  | removed (id : Nat)
  | saved
  | saveFailed
  | tore
  | killed
deriving DecidableEq, Repr

structure S where
  cloud : List Vm := []
  /-- ids the cloud has given so far -/
  used : List Nat := []
  /-- `Servers` in the file -/
  disk : List Rec := []
  /-- there is a process -/
  on : Bool := false
  /-- `resources.Servers` -/
  mem : List Rec := []
  /-- `madeHeadNode` -/
  made : Bool := false
  /-- calls that have to save -/
  wait : Nat := 0
  log : List Said := []
deriving DecidableEq, Repr

inductive Ev where
  | new
  /-- `err`: the cloud does not answer -/
  | deploy (err : Bool)
  /-- the cloud gave the server this id; `ext`: with external IP -/
  | spawn (id : Nat) (ext : Bool)
  | check (id : Nat) (err : Bool)
  | destroy (id : Nat) (err : Bool)
  | save (ok : Bool)
  | tear
  | kill
  /-- the server is deleted by somebody else -/
  | vanish (id : Nat)
  /-- the status of the server becomes ACTIVE, or something else -/
  | status (id : Nat) (active : Bool)
deriving DecidableEq, Repr

/-- openstack.go:1089-1100 `serverIsKnown` -/
def there (s : S) (id : Nat) : Bool := s.cloud.any (·.id = id)

/-- openstack.go:1072-1082 `checkServer` -/
def works (s : S) (id : Nat) : Bool := s.cloud.any fun v => v.id = id && v.active

/-- cloud.go:431-450: the file is saved, and then it is looked whether there is a head node; an error of that call ends Deploy() -/
def doDeploy (s : S) (err : Bool) : S :=
  let s : S := { s with disk := s.mem, log := s.log ++ [.saved] }
  if err && s.mem.any (·.head) then { s with log := s.log ++ [.deployFailed] }
  else { s with made := s.made || s.mem.any fun r => r.head && there s r.id, log := s.log ++ [.deployed] }

/-- cloud.go:724-738 -/
def doSpawn (s : S) (id : Nat) (ext : Bool) : S :=
  let s : S := { s with cloud := s.cloud ++ [{ id := id }], used := s.used ++ [id] }
  if ext then
    { s with mem := s.mem ++ [⟨id, !s.made⟩], made := true, wait := s.wait + 1, log := s.log ++ [.spawned id] }
  else s

/-- the record is deleted, and the file has to be saved -/
def forget (s : S) (id : Nat) : S :=
  { s with mem := s.mem.filter (·.id ≠ id), wait := s.wait + 1, log := s.log ++ [.removed id] }

/-- cloud.go:755-770 -/
def doCheck (s : S) (id : Nat) (err : Bool) : S :=
  if err || works s id then s
  else if s.mem.any (·.id = id) then forget s id
  else s

/-- cloud.go:787-800 -/
def doDestroy (s : S) (id : Nat) (err : Bool) : S :=
  if err then s else forget { s with cloud := s.cloud.filter (·.id ≠ id) } id

def step (s : S) : Ev → Option S
  | .new => if s.on then none else some { s with on := true, mem := s.disk, made := false, wait := 0, log := s.log ++ [.opened] }
  | .deploy err => if s.on then some (doDeploy s err) else none
  | .spawn id ext => if s.on ∧ id ∉ s.used then some (doSpawn s id ext) else none
  | .check id err => if s.on then some (doCheck s id err) else none
  | .destroy id err => if s.on then some (doDestroy s id err) else none
  | .save ok => -- cloud.go:900-914
    if s.on ∧ s.wait ≠ 0 then
      (if ok then some { s with wait := s.wait - 1, disk := s.mem, log := s.log ++ [.saved] }
       else some { s with wait := s.wait - 1, log := s.log ++ [.saveFailed] })
    else none
  | .tear => if s.on then some { s with cloud := [], disk := [], log := s.log ++ [.tore] } else none -- cloud.go:881-896
  | .kill => if s.on then some { s with on := false, log := s.log ++ [.killed] } else none
  | .vanish id => some { s with cloud := s.cloud.filter (·.id ≠ id) }
  | .status id a => some { s with cloud := s.cloud.map fun v => if v.id = id then { v with active := a } else v }

def run (s : S) : List Ev → Option S
  | [] => some s
  | e :: es => (step s e).bind fun s => run s es

/-- what Servers() returns: the ids -/
def servers (s : S) : List Nat := s.mem.map (·.id)

/-- what HeadNode() can return: with several it is any of them -/
def headNodes (s : S) : List Nat := (s.mem.filter (·.head)).map (·.id)

end Verif.Cloud.Known
