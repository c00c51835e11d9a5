import Verif.Server.Modify
import Verif.Util.Str
/-!
# `wr mod`: from the options to the modification (cmd/mod.go:92-383)

Which jobs an identifier chooses is in `Verif.Cmd.Choose`; what the server does with the modification is in `Verif.Server.Modify` and
`Verif.Server.Store`.

Simplified: an option that was given is `some`. What is read from elsewhere, or parsed by packages, is a parameter (`World`). The amount
of disk and of cores are natural numbers; `--cloud_ram` is its decimal text. A dependency is a text made by `World.onCmd` or
`World.onGroup` (`NewEssenceDependency`, `NewDepGroupDependency`).
-/
namespace Verif.Cmd.Mod
open Verif.Util
open Verif.Server.Groups (Str)
open Verif.Server.Keys (Mount)
open Verif.Server.Modify (Job Modifier ReqMod modifyAll)
open Verif.Client (Behaviour)

/-- what the options are interpreted with; `none`: an error, of which the command dies -/
structure World where
  /-- bytefmt.ToMegabytes -/
  mb : Str → Option Nat
  /-- time.ParseDuration -/
  dur : Str → Option Nat
  /-- internal.PathToContent -/
  content : Str → Option Str
  /-- cmd/add.go:867 `copyCloudConfigFiles` -/
  copy : Str → Str
  /-- unmarshalling of behaviours, for a trigger -/
  behaviours : UInt8 → Str → Option (List Behaviour)
  /-- cmd/mount.go `mountParse` -/
  mounts : Str → Str → Option (List Mount)
  onCmd : Str → Str → Str
  onGroup : Str → Str

/-- the options, cmd/mod.go:386-448. There is none for modules: line 150 looks at an option that was never made. -/
structure Flags where
  all : Bool := false
  ident : Str := []
  search : Bool := false
  internal : Bool := false
  cmdline : Str := []
  limitGrps : Option Str := none
  cwd : Option Str := none
  cwdMatters : Bool := false
  unsetCwdMatters : Bool := false
  changeHome : Bool := false
  unsetChangeHome : Bool := false
  reqGrp : Option Str := none
  group : Option Str := none
  memory : Option Str := none
  time : Option Str := none
  cpus : Option Nat := none
  disk : Option Nat := none
  os : Option Str := none
  user : Option Str := none
  osRam : Option Str := none
  flavor : Option Str := none
  script : Option Str := none
  configs : Option Str := none
  shared : Bool := false
  unsetShared : Bool := false
  queue : Str := []
  avoid : Str := []
  override : Option Str := none
  priority : Option Int := none
  retries : Option Int := none
  cmdDeps : Option Str := none
  deps : Option Str := none
  monitorDocker : Option Str := none
  docker : Option Str := none
  singularity : Option Str := none
  containerMounts : Option Str := none
  onFailure : Option Str := none
  onSuccess : Option Str := none
  onExit : Option Str := none
  mountJson : Option Str := none
  mounts : Option Str := none
  env : Option Str := none

/-- cmd/mod.go:95-106: the options that say which jobs -/
def selects (f : Flags) : Bool :=
  !(f.all && decide (f.ident ≠ [])) && !(f.all && decide (f.cmdline ≠ [])) &&
  !(decide (f.ident = []) && (f.search || f.internal)) && (f.all || decide (f.ident ≠ []))

/-- Go `uint8(n)` -/
def toU8 (n : Int) : UInt8 := UInt8.ofNat (n % 256).toNat

/-- cmd/add.go:975-988 `overrideStringToInt` -/
def overrideOf (s : Str) : Option UInt8 :=
  if s ∈ ["0".toList, "no".toList, "n".toList] then some 0
  else if s ∈ ["1".toList, "higher".toList, "h".toList] then some 1
  else if s ∈ ["2".toList, "always".toList, "a".toList] then some 2
  else none

/-- an option that must be understood -/
def opt {α β : Type} (o : Option α) (p : α → Option β) : Option (Option β) :=
  match o with
  | none => some none
  | some a => (p a).map some

/-- `other[key] = value` -/
def entry (k : String) : Option Str → List (Str × Str)
  | none => []
  | some v => [(k.toList, v)]

/-- not "" (cmd/mod.go:207, 225, 239, 242) -/
def nonEmpty (s : Str) : Option Str := if s = [] then none else some s

/-- cmd/mod.go:194-252: the entries of `other`; `script` is the content -/
def others (w : World) (f : Flags) (script : Option Str) : List (Str × Str) :=
  entry "cloud_os" f.os ++ entry "cloud_user" f.user ++ entry "cloud_os_ram" f.osRam ++
  entry "cloud_flavor" (f.flavor.bind nonEmpty) ++ entry "cloud_script" script ++
  entry "cloud_config_files" ((f.configs.bind nonEmpty).map w.copy) ++
  (if f.shared then entry "cloud_shared" (some "true".toList)
   else if f.unsetShared then entry "cloud_shared" (some "false".toList) else []) ++
  entry "scheduler_queue" (nonEmpty f.queue) ++ entry "scheduler_queues_avoid" (nonEmpty f.avoid)

/-- cmd/mod.go:195, 207, 225: `otherSet` -/
def otherSet (f : Flags) : Bool := decide (f.flavor = some []) || decide (f.configs = some [])

/-- cmd/mod.go:169-256: the requirements, if any is given -/
def reqOf (w : World) (f : Flags) : Option (Option ReqMod) := do
  let mem ← opt f.memory w.mb
  let time ← opt f.time w.dur
  let script ← opt f.script fun p => if p = [] then some [] else w.content p
  let other := others w f script
  let other? := if other ≠ [] ∨ otherSet f then some other else none
  if mem.isSome ∨ time.isSome ∨ f.cpus.isSome ∨ f.disk.isSome ∨ other?.isSome then
    return some { ram := mem.getD 0, time := time.getD 0, cores := f.cpus, disk := f.disk, other := other? }
  else return none

/-- cmd/add.go:588-593 `colsToDeps` -/
def pairs (w : World) : List Str → List Str
  | c :: d :: cs => w.onCmd c d :: pairs w cs
  | _ => []

/-- cmd/mod.go:268-285; `none`: an odd number of columns -/
def depsOf (w : World) (f : Flags) : Option (Option (List Str)) := do
  let cmds ← opt f.cmdDeps fun s => if (split ',' s).length % 2 ≠ 0 then none else some (pairs w (split ',' s))
  -- cmd/add.go:596-601 `groupsToDeps`
  let groups := f.deps.map fun s => (split ',' s).map w.onGroup
  if cmds.isSome ∨ groups.isSome then return some (cmds.getD [] ++ groups.getD []) else return none

/-- cmd/mod.go:41 `nothingBehaviour` -/
def nothing : Str := "[{\"Nothing\":true}]".toList

/-- cmd/mod.go:302-306 and 314-318 and 326-330 -/
def behaviourText (s : Str) : Str := if s = [] then nothing else s

/-- cmd/mod.go:300-341; 4, 2 and 1 are OnFailure, OnSuccess and OnExit (behaviours.go:37-41) -/
def behavioursOf (w : World) (f : Flags) : Option (Option (List Behaviour)) := do
  let a ← opt f.onFailure fun s => w.behaviours 4 (behaviourText s)
  let b ← opt f.onSuccess fun s => w.behaviours 2 (behaviourText s)
  let c ← opt f.onExit fun s => w.behaviours 1 (behaviourText s)
  if a.isSome ∨ b.isSome ∨ c.isSome then return some (a.getD [] ++ b.getD [] ++ c.getD []) else return none

/-- cmd/mod.go:343-351 -/
def mountsOf (w : World) (f : Flags) : Option (Option (List Mount)) :=
  if f.mountJson.isSome ∨ f.mounts.isSome then
    if f.mountJson.getD [] = [] ∧ f.mounts.getD [] = [] then some (some [])
    else (w.mounts (f.mountJson.getD []) (f.mounts.getD [])).map some
  else some none

/-- a pair of options of which one turns on and one off (cmd/mod.go:159-168) -/
def onOff (set unset : Bool) : Option Bool := if set then some true else if unset then some false else none

/-- cmd/mod.go:140-358: the modification; `none`: the command dies -/
def build (w : World) (f : Flags) : Option Modifier := do
  let req ← reqOf w f
  let override ← opt f.override overrideOf
  let depends ← depsOf w f
  let behaviours ← behavioursOf w f
  let mounts ← mountsOf w f
  return {
    cmd := f.cmdline
    limitGroups := f.limitGrps.map (split ',')
    cwd := f.cwd.getD []
    cwdMatters := onOff f.cwdMatters f.unsetCwdMatters
    changeHome := onOff f.changeHome f.unsetChangeHome
    reqGroup := f.reqGrp
    group := f.group
    req := req
    override := override
    priority := f.priority.map toU8
    retries := f.retries.map toU8
    depends := depends
    monitorDocker := f.monitorDocker
    docker := f.docker
    singularity := f.singularity
    containerMounts := f.containerMounts
    behaviours := behaviours
    mounts := mounts
    env := f.env }

/-- cmd/mod.go:92-383 `wr mod`: `chosen` are the jobs that the identifier chooses, of which the first components are in the queue and not
running (jobqueue/serverCLI.go:495-507); the jobs after it, and the printed map of new to old keys; `none`: it dies, and has not asked
the server for a change -/
def mod {K : Type} [DecidableEq K] (hash : Str → K) (taken : K → Bool) (w : World) (f : Flags) (chosen : List (Bool × Job)) :
    Option (List Job × List (K × K)) :=
  if !selects f then none
  else if chosen = [] then none
  else if 1 < chosen.length ∧ f.cmdline ≠ [] then none
  else (build w f).map fun m => modifyAll hash taken m [] ((chosen.filter (·.1)).map (·.2))

end Verif.Cmd.Mod
