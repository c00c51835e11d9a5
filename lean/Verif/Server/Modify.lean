import Verif.Server.Keys
import Verif.Client.Behaviours
/-!
# Modification of jobs, field by field (jobqueue/job.go:1032-1423)

Simplifications: values that `Modify` only copies are numbers or strings (an `EnvOverride` is the string before its compression).
`BsubID`, of which only the uniqueness matters, is left out. The hash of keys is a parameter. The modification of the queue and
of the database (serverCLI.go:470-601) is modelled in `Verif.Server.Store`.
-/
namespace Verif.Server.Modify
open Verif.Server.Groups (Str)
open Verif.Server.Keys (Mount JobId keyString)
open Verif.Client (Behaviour)

/-- jobqueue/scheduler/scheduler.go `Requirements` -/
structure Req where
  ram : Nat
  time : Nat
  cores : Nat
  disk : Nat
  other : List (Str × Str)
  deriving DecidableEq

/-- job.go:87-340 `Job`: the fields that users set, and two that follow from them (`actualCwd`, `untilBuried`). `toJobId` has those
that go into the key. -/
structure Job extends JobId where
  /-- empty for "" -/
  actualCwd : Str
  repGroup : Str
  changeHome : Bool
  reqGroup : Str
  group : Str
  req : Req
  override : UInt8
  priority : UInt8
  retries : UInt8
  untilBuried : UInt8
  noRetriesOver : Nat
  env : Str
  limitGroups : List Str
  modules : List Str
  depGroups : List Str
  depends : List Str
  behaviours : List Behaviour
  bsubMode : Str
  monitorDocker : Str
  deriving DecidableEq

/-- scheduler.go `Requirements`, in a modifier: `CoresSet`, `DiskSet` and `OtherSet` are options -/
structure ReqMod where
  ram : Nat := 0
  time : Nat := 0
  cores : Option Nat := none
  disk : Option Nat := none
  other : Option (List (Str × Str)) := none

/-- job.go:1038-1082 `JobModifier`: a field with a `…Set` is an option -/
structure Modifier where
  cmd : Str := []
  cwd : Str := []
  cwdMatters : Option Bool := none
  changeHome : Option Bool := none
  reqGroup : Option Str := none
  group : Option Str := none
  req : Option ReqMod := none
  override : Option UInt8 := none
  priority : Option UInt8 := none
  retries : Option UInt8 := none
  noRetriesOver : Option Nat := none
  env : Option Str := none
  limitGroups : Option (List Str) := none
  modules : Option (List Str) := none
  depGroups : Option (List Str) := none
  depends : Option (List Str) := none
  behaviours : Option (List Behaviour) := none
  mounts : Option (List Mount) := none
  bsubMode : Option Str := none
  monitorDocker : Option Str := none
  docker : Option Str := none
  singularity : Option Str := none
  containerMounts : Option Str := none

/-- job.go:1263-1294: the fields of the new key -/
def newId (m : Modifier) (j : JobId) : JobId where
  cmd := if m.cmd ≠ [] then m.cmd else j.cmd
  cwd := if m.cwd ≠ [] then m.cwd else j.cwd
  cwdMatters := m.cwdMatters.getD j.cwdMatters
  mounts := m.mounts.getD j.mounts
  docker := m.docker.getD j.docker
  singularity := m.singularity.getD j.singularity
  containerMounts := m.containerMounts.getD j.containerMounts

/-- job.go:1338-1354 -/
def modReq (r : ReqMod) (q : Req) : Req where
  ram := if r.ram ≠ 0 then r.ram else q.ram
  time := if r.time ≠ 0 then r.time else q.time
  cores := r.cores.getD q.cores
  disk := r.disk.getD q.disk
  other := r.other.getD q.other

/-- job.go:1384-1393: the first old one with the same trigger is replaced -/
def replaceFirst (new : Behaviour) : List Behaviour → Option (List Behaviour)
  | [] => none
  | b :: bs => if b.on = new.on then some (new :: bs) else (replaceFirst new bs).map (b :: ·)

/-- job.go:1382-1398 -/
def modBehaviours (news : List Behaviour) (olds : List Behaviour) : List Behaviour :=
  news.foldl (fun bs new => (replaceFirst new bs).getD (bs ++ [new])) olds

/-- job.go:1315-1417: the job after -/
def apply (m : Modifier) (j : Job) : Job :=
  let cwd := if m.cwd ≠ [] then m.cwd else j.cwd
  { cmd := if m.cmd ≠ [] then m.cmd else j.cmd
    cwd := cwd
    cwdMatters := m.cwdMatters.getD j.cwdMatters
    actualCwd := if m.cwdMatters = some true then cwd else j.actualCwd
    repGroup := j.repGroup
    changeHome := m.changeHome.getD j.changeHome
    reqGroup := m.reqGroup.getD j.reqGroup
    group := m.group.getD j.group
    req := match m.req with
      | none => j.req
      | some r => modReq r j.req
    override := m.override.getD j.override
    priority := m.priority.getD j.priority
    retries := m.retries.getD j.retries
    untilBuried := j.untilBuried
    noRetriesOver := m.noRetriesOver.getD j.noRetriesOver
    env := m.env.getD j.env
    limitGroups := m.limitGroups.getD j.limitGroups
    modules := m.modules.getD j.modules
    depGroups := m.depGroups.getD j.depGroups
    depends := m.depends.getD j.depends
    behaviours := match m.behaviours with
      | none => j.behaviours
      | some bs => modBehaviours bs j.behaviours
    mounts := m.mounts.getD j.mounts
    bsubMode := m.bsubMode.getD j.bsubMode
    monitorDocker := m.monitorDocker.getD j.monitorDocker
    docker := m.docker.getD j.docker
    singularity := m.singularity.getD j.singularity
    containerMounts := m.containerMounts.getD j.containerMounts }

/-- job.go:852-872 `Key` -/
def key {K : Type} (hash : Str → K) (j : JobId) : K := hash (keyString j)

/-- job.go:1257-1423 `Modify`: the jobs after it, and the map of new to old keys; `taken` is `checkJobByKey`, server.go:2386-2399,
without its error (the queue has the old keys all the time). `keys` has what was done before. -/
def modifyAll {K : Type} [DecidableEq K] (hash : Str → K) (taken : K → Bool) (m : Modifier) (keys : List (K × K)) : List Job → List Job × List (K × K)
  | [] => ([], keys)
  | j :: js =>
    let before := key hash j.toJobId
    let newKey := key hash (newId m j.toJobId)
    if newKey ∈ keys.map (·.1) ∨ (newKey ≠ before ∧ taken newKey = true) then
      let r := modifyAll hash taken m keys js
      (j :: r.1, r.2)
    else
      let r := modifyAll hash taken m (keys ++ [(key hash (apply m j).toJobId, before)]) js
      (apply m j :: r.1, r.2)

/-- server.go:2322 `kickJobs`, server.go:1876 `createJobs`: from here on counts what `Retries` is -/
def resetAttempts (j : Job) : Job := { j with untilBuried := j.retries + 1 }

end Verif.Server.Modify
