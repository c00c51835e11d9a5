import Verif.Client.Behaviours
/-!
# From JSON to a job (jobqueue/serverREST.go:58-546)

Simplifications: the parsers of sizes and durations, reading a file, compressing an environment and `filepath.Base` are
parameters (`Env`). Numbers of cores are whole numbers. Go's JSON decoder is modelled by what it does with one flat object: a member that is not
there leaves the zero value. The caches in `JobDefaults` are left out.
-/
namespace Verif.Server.Convert
open Verif.Client

/-- outside functions -/
structure Env where
  toMegabytes : String → Option Int
  parseDuration : String → Option Int
  pathToContent : String → Option String
  compressEnv : List String → Option (List UInt8)
  base : String → String

/-- a dependency: on a dependency group, or on a command (by its key) -/
inductive Dep where
  | group (g : String)
  | cmd (k : String)
  deriving DecidableEq, Repr

/-- serverREST.go:58-103 `JobViaJSON` -/
structure JVJ where
  mountConfigs : List String := []
  limitGrps : List String := []
  modules : List String := []
  depGrps : List String := []
  deps : List String := []
  cmdDeps : List Dep := []
  onFailure : List ViaJSON := []
  onSuccess : List ViaJSON := []
  onExit : List ViaJSON := []
  env : List String := []
  cmd : String := ""
  cwd : String := ""
  reqGrp : String := ""
  group : String := ""
  memory : String := ""
  time : String := ""
  repGrp : String := ""
  monitorDocker : String := ""
  withDocker : String := ""
  withSingularity : String := ""
  containerMounts : String := ""
  cloudOS : String := ""
  cloudUser : String := ""
  cloudScript : String := ""
  cloudConfigFiles : String := ""
  cloudFlavor : String := ""
  schedulerQueue : String := ""
  schedulerQueuesAvoid : String := ""
  schedulerMisc : String := ""
  bsubMode : String := ""
  cpus : Option Int := none
  disk : Option Int := none
  override : Option Int := none
  priority : Option Int := none
  retries : Option Int := none
  noRetriesOverWalltime : String := ""
  cloudOSRam : Option Int := none
  rTimeout : Option Int := none
  cwdMatters : Bool := false
  changeHome : Bool := false
  cloudShared : Bool := false

/-- serverREST.go:107-157 `JobDefaults` -/
structure JD where
  limitGroups : List String := []
  modules : List String := []
  depGroups : List String := []
  deps : List Dep := []
  onFailure : List Behaviour := []
  onSuccess : List Behaviour := []
  onExit : List Behaviour := []
  mountConfigs : List String := []
  repGrp : String := ""
  group : String := ""
  cwd : String := ""
  reqGrp : String := ""
  /-- `strings.Split(jd.Env, ",")` of a non-empty `Env`; nil stands for an empty one -/
  env : List String := []
  monitorDocker : String := ""
  withDocker : String := ""
  withSingularity : String := ""
  containerMounts : String := ""
  cloudOS : String := ""
  cloudUser : String := ""
  cloudFlavor : String := ""
  cloudScript : String := ""
  cloudConfigFiles : String := ""
  schedulerQueue : String := ""
  schedulerQueuesAvoid : String := ""
  schedulerMisc : String := ""
  bsubMode : String := ""
  cpus : Int := 0
  memory : Int := 0
  time : Int := 0
  disk : Int := 0
  override : Int := 0
  priority : Int := 0
  retries : Int := 0
  noRetriesOverWalltime : Int := 0
  cloudOSRam : Int := 0
  rTimeout : Int := 0
  cwdMatters : Bool := false
  changeHome : Bool := false
  diskSet : Bool := false
  cloudShared : Bool := false

/-- the `Job` that is made, with its `Requirements` (serverREST.go:519-545) -/
structure Job where
  repGroup : String
  cmd : String
  cwd : String
  cwdMatters : Bool
  changeHome : Bool
  reqGroup : String
  group : String
  ram : Int
  time : Int
  cores : Int
  disk : Int
  diskSet : Bool
  other : List (String × String)
  override : UInt8
  priority : UInt8
  retries : UInt8
  noRetriesOverWalltime : Int
  limitGroups : List String
  modules : List String
  depGroups : List String
  dependencies : List Dep
  envOverride : List UInt8
  behaviours : List Behaviour
  mountConfigs : List String
  monitorDocker : String
  withDocker : String
  withSingularity : String
  containerMounts : String
  bsubMode : String

/-- serverREST.go:160-165 `DefaultCwd` -/
def JD.defaultCwd (jd : JD) : String := if jd.cwd = "" then "/tmp" else jd.cwd

/-- serverREST.go:168-173 `DefaultCPUs` -/
def JD.defaultCPUs (jd : JD) : Int := if jd.cpus < 0 then 0 else jd.cpus

/-- serverREST.go:176-181 `DefaultMemory` -/
def JD.defaultMemory (jd : JD) : Int := if jd.memory < 1 then 1000 else jd.memory

/-- one hour -/
def hour : Int := 3600000000000

/-- serverREST.go:184-189 `DefaultTime` -/
def JD.defaultTime (jd : JD) : Int := if jd.time = 0 then hour else jd.time

/-- serverREST.go:202-211 `DefaultCloudOSRam` -/
def JD.defaultCloudOSRam (jd : JD) : String := toString (if jd.cloudOSRam = 0 then 1000 else jd.cloudOSRam)

/-- the pattern of e.g. serverREST.go:233-237 -/
def strOr (s d : String) : String := if s = "" then d else s

/-- the pattern of e.g. serverREST.go:341-345 -/
def listOr {α : Type} (l d : List α) : List α := if l.length = 0 then d else l

/-- the pattern of e.g. serverREST.go:276-280 -/
def valOr {α : Type} (o : Option α) (d : α) : α := match o with | none => d | some v => v

/-- the pattern of e.g. serverREST.go:441-445: an entry in `other` -/
def entry (k s d : String) : List (String × String) := if s ≠ "" then [(k, s)] else if d ≠ "" then [(k, d)] else []

/-- Go's conversion of an int to a uint8 -/
def uint8 (n : Int) : UInt8 := UInt8.ofNat (n % 256).toNat

/-- serverREST.go:365-375 dependencies -/
def pickDeps (jvj : JVJ) (jd : JD) : List Dep :=
  if jvj.deps.length = 0 ∧ jvj.cmdDeps.length = 0 then jd.deps
  else (if 0 < jvj.cmdDeps.length then jvj.cmdDeps else []) ++ jvj.deps.map .group

/-- serverREST.go:396-410 behaviours -/
def pickBehaviours (jvj : JVJ) (jd : JD) : List Behaviour :=
  (if 0 < jvj.onFailure.length then Client.behaviours jvj.onFailure Client.onFailure else jd.onFailure) ++
  (if 0 < jvj.onSuccess.length then Client.behaviours jvj.onSuccess Client.onSuccess else jd.onSuccess) ++
  (if 0 < jvj.onExit.length then Client.behaviours jvj.onExit Client.onExit else jd.onExit)

/-- serverREST.go:468 -/
def scriptEntry : Option String → List (String × String)
  | some c => [("cloud_script", c)]
  | none => []

/-- serverREST.go:477-482 -/
def ramEntry (o : Option Int) (jd : JD) : List (String × String) :=
  match o with
  | some r => [("cloud_os_ram", toString r)]
  | none => if jd.cloudOSRam ≠ 0 then [("cloud_os_ram", jd.defaultCloudOSRam)] else []

/-- serverREST.go:484-486 -/
def sharedEntry (a b : Bool) : List (String × String) := if a || b then [("cloud_shared", "true")] else []

/-- serverREST.go:506-511 -/
def rtEntry (o : Option Int) (jd : JD) : List (String × String) :=
  match o with
  | some r => [("rtimeout", toString r)]
  | none => if jd.rTimeout ≠ 0 then [("rtimeout", toString jd.rTimeout)] else []

/-- serverREST.go:260-269 the requirements group; `b` is made from the command -/
def reqOr (s d b : String) : String := if s = "" then (if d ≠ "" then d else b) else s

/-- serverREST.go:440-517 scheduler-specific options; `script` is what was read from the script's path -/
def pickOther (jvj : JVJ) (jd : JD) (script : Option String) : List (String × String) :=
  entry "cloud_os" jvj.cloudOS jd.cloudOS ++
  entry "cloud_user" jvj.cloudUser jd.cloudUser ++
  entry "cloud_flavor" jvj.cloudFlavor jd.cloudFlavor ++
  scriptEntry script ++
  entry "cloud_config_files" jvj.cloudConfigFiles jd.cloudConfigFiles ++
  ramEntry jvj.cloudOSRam jd ++
  sharedEntry jvj.cloudShared jd.cloudShared ++
  entry "scheduler_queue" jvj.schedulerQueue jd.schedulerQueue ++
  entry "scheduler_queues_avoid" jvj.schedulerQueuesAvoid jd.schedulerQueuesAvoid ++
  entry "scheduler_misc" jvj.schedulerMisc jd.schedulerMisc ++
  rtEntry jvj.rTimeout jd

/-- a value given as a string is parsed, else the default is used (e.g. serverREST.go:282-290) -/
def parseOr {α : Type} (parse : String → Option α) (s : String) (d : α) : Option α :=
  if s = "" then some d else parse s

/-- serverREST.go:377-389 the environment -/
def pickEnv (env : Env) (jvj : JVJ) (jd : JD) : Option (List UInt8) :=
  if 0 < jvj.env.length then env.compressEnv jvj.env
  else if 0 < jd.env.length then env.compressEnv jd.env
  else some []

/-- serverREST.go:457-468 the script; outer none: it could not be read -/
def pickScript (env : Env) (jvj : JVJ) (jd : JD) : Option (Option String) :=
  let path := if jvj.cloudScript ≠ "" then jvj.cloudScript else if jd.cloudScript ≠ "" then jd.cloudScript else ""
  if path ≠ "" then (env.pathToContent path).map some else some none

/-- serverREST.go:222-546 `Convert`; none: an error is returned -/
def convert (env : Env) (jvj : JVJ) (jd : JD) : Option Job :=
  if jvj.cmd = "" then none
  else do
    let mb ← parseOr env.toMegabytes jvj.memory jd.defaultMemory
    let dur ← parseOr env.parseDuration jvj.time jd.defaultTime
    let override := valOr jvj.override jd.override
    if override < 0 ∨ override > 2 then none
    else
    let priority := valOr jvj.priority jd.priority
    if priority < 0 ∨ priority > 255 then none
    else
    let retries := valOr jvj.retries jd.retries
    if retries < 0 ∨ retries > 255 then none
    else
    let noRetry ← parseOr env.parseDuration jvj.noRetriesOverWalltime jd.noRetriesOverWalltime
    let envOverride ← pickEnv env jvj jd
    let script ← pickScript env jvj jd
    some {
      repGroup := strOr jvj.repGrp jd.repGrp
      cmd := jvj.cmd
      cwd := strOr jvj.cwd jd.defaultCwd
      cwdMatters := if jvj.cwdMatters then true else jd.cwdMatters
      changeHome := if jvj.changeHome then true else jd.changeHome
      reqGroup := reqOr jvj.reqGrp jd.reqGrp (env.base jvj.cmd)
      group := strOr jvj.group jd.group
      ram := mb
      time := dur
      cores := valOr jvj.cpus jd.defaultCPUs
      disk := valOr jvj.disk jd.disk
      diskSet := match jvj.disk with | none => jd.diskSet | some _ => true
      other := pickOther jvj jd script
      override := uint8 override
      priority := uint8 priority
      retries := uint8 retries
      noRetriesOverWalltime := noRetry
      limitGroups := listOr jvj.limitGrps jd.limitGroups
      modules := listOr jvj.modules jd.modules
      depGroups := listOr jvj.depGrps jd.depGroups
      dependencies := pickDeps jvj jd
      envOverride := envOverride
      behaviours := pickBehaviours jvj jd
      mountConfigs := listOr jvj.mountConfigs jd.mountConfigs
      monitorDocker := strOr jvj.monitorDocker jd.monitorDocker
      withDocker := strOr jvj.withDocker jd.withDocker
      withSingularity := strOr jvj.withSingularity jd.withSingularity
      containerMounts := strOr jvj.containerMounts jd.containerMounts
      bsubMode := strOr jvj.bsubMode jd.bsubMode }

/-- A JSON object as the user writes it: a member is there or not. -/
structure Json where
  mounts : Option (List String) := none
  limit_grps : Option (List String) := none
  modules : Option (List String) := none
  dep_grps : Option (List String) := none
  deps : Option (List String) := none
  cmd_deps : Option (List Dep) := none
  on_failure : Option (List ViaJSON) := none
  on_success : Option (List ViaJSON) := none
  on_exit : Option (List ViaJSON) := none
  env : Option (List String) := none
  cmd : Option String := none
  cwd : Option String := none
  req_grp : Option String := none
  group : Option String := none
  memory : Option String := none
  time : Option String := none
  rep_grp : Option String := none
  monitor_docker : Option String := none
  with_docker : Option String := none
  with_singularity : Option String := none
  container_mounts : Option String := none
  cloud_os : Option String := none
  cloud_username : Option String := none
  cloud_script : Option String := none
  cloud_config_files : Option String := none
  cloud_flavor : Option String := none
  queue : Option String := none
  queues_avoid : Option String := none
  misc : Option String := none
  bsub_mode : Option String := none
  cpus : Option Int := none
  disk : Option Int := none
  override : Option Int := none
  priority : Option Int := none
  retries : Option Int := none
  no_retry_over_walltime : Option String := none
  cloud_ram : Option Int := none
  reserve_timeout : Option Int := none
  cwd_matters : Option Bool := none
  change_home : Option Bool := none
  cloud_shared : Option Bool := none

/-- decoding with encoding/json, given the struct tags of serverREST.go:58-103 -/
def decode (j : Json) : JVJ where
  mountConfigs := j.mounts.getD []
  limitGrps := j.limit_grps.getD []
  modules := j.modules.getD []
  depGrps := j.dep_grps.getD []
  deps := j.deps.getD []
  cmdDeps := j.cmd_deps.getD []
  onFailure := j.on_failure.getD []
  onSuccess := j.on_success.getD []
  onExit := j.on_exit.getD []
  env := j.env.getD []
  cmd := j.cmd.getD ""
  cwd := j.cwd.getD ""
  reqGrp := j.req_grp.getD ""
  group := j.group.getD ""
  memory := j.memory.getD ""
  time := j.time.getD ""
  repGrp := j.rep_grp.getD ""
  monitorDocker := j.monitor_docker.getD ""
  withDocker := j.with_docker.getD ""
  withSingularity := j.with_singularity.getD ""
  containerMounts := j.container_mounts.getD ""
  cloudOS := j.cloud_os.getD ""
  cloudUser := j.cloud_username.getD ""
  cloudScript := j.cloud_script.getD ""
  cloudConfigFiles := j.cloud_config_files.getD ""
  cloudFlavor := j.cloud_flavor.getD ""
  schedulerQueue := j.queue.getD ""
  schedulerQueuesAvoid := j.queues_avoid.getD ""
  schedulerMisc := j.misc.getD ""
  bsubMode := j.bsub_mode.getD ""
  cpus := j.cpus
  disk := j.disk
  override := j.override
  priority := j.priority
  retries := j.retries
  noRetriesOverWalltime := j.no_retry_over_walltime.getD ""
  cloudOSRam := j.cloud_ram
  rTimeout := j.reserve_timeout
  cwdMatters := j.cwd_matters.getD false
  changeHome := j.change_home.getD false
  cloudShared := j.cloud_shared.getD false

end Verif.Server.Convert
