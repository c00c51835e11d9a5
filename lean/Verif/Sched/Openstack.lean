import Verif.Cloud.Flavor
/-!
# The OpenStack scheduler (jobqueue/scheduler/openstack.go): flavors, quota and spawning

Cores of a requirement are exact numbers of thousandths (float64 in the code).
-/
namespace Verif.Sched.Openstack
open Verif.Cloud.Flavors (Flv Res)

/-- openstack.go:44 `unquotadVal` -/
def unquotad : Int := 1000000

/-- what is used of scheduler.go `Requirements`: `osRAM` is `Other["cloud_os_ram"]` (`some none` if it is no number) and `flavor` is
`Other["cloud_flavor"]` -/
structure Req where
  cores : Int
  ram : Int
  disk : Int
  osRAM : Option (Option Int) := none
  flavor : Option String := none
  deriving DecidableEq, Repr

/-- `int(math.Ceil(req.Cores))` -/
def ceil (c : Int) : Int := -(Int.fdiv (-c) 1000)

/-- openstack.go:815-826, the RAM the operating system needs -/
def osRAM (cfgOSRAM : Int) (r : Req) : Int :=
  match r.osRAM with
  | some (some i) => i
  | some none => cfgOSRAM
  | none => cfgOSRAM

/-- openstack.go:812-852 `reqForSpawn` -/
def reqForSpawn (cfgOSRAM cfgOSDisk : Int) (r : Req) : Req :=
  let r1 := if r.ram < osRAM cfgOSRAM r then { r with ram := osRAM cfgOSRAM r } else r
  let disk := if r.disk = 0 then cfgOSDisk else r.disk
  if r.disk < disk then { r1 with disk := disk } else r1

inductive Err where
  | impossible | noFlavor | badRegex | badFlavor | panic
  deriving DecidableEq, Repr

/-- openstack.go:490-508, the choice among the flavors of the sets: `cur` is what was picked although it failed -/
def choose (failed : String → Bool) : Option Flv → List (Option Flv) → Option Flv
  | cur, [] => cur
  | cur, none :: rest => choose failed cur rest
  | cur, some f :: rest => if failed f.id then choose failed (some (cur.getD f)) rest else some f

/-- openstack.go:457-523 `determineFlavor`, given what `CheapestServerFlavors` returns, the flavors marked as failed, and what is cached for
the call (`none` for the call ""). -/
def determineFlavor (picks : Res (List (Option Flv))) (failed : String → Bool) (cached : Option Flv) : Except Err Flv :=
  match cached with
  | some f => .ok f
  | none =>
    match picks with
    | .badRegex => .error .badRegex
    | .noFlavor => .error .noFlavor
    | .panic => .error .panic
    | .ok flavors =>
      match choose failed none flavors with
      | none => .error .impossible
      | some f => .ok f

/-- the quota, as far as it is compared at the start (openstack.go:305-330) -/
structure Max where
  ram : Int
  cores : Int
  volume : Int
  deriving DecidableEq, Repr

/-- openstack.go:398-432 `reqCheck`: `picks` gives the answer of `CheapestServerFlavors` for an amount of cores and RAM, `get` that of
`GetServerFlavor` -/
def reqCheck (m : Max) (cfgOSRAM cfgOSDisk : Int) (get : String → Option Flv) (picks : Int → Int → Res (List (Option Flv))) (failed : String → Bool)
    (r : Req) : Except Err Unit :=
  let rs := reqForSpawn cfgOSRAM cfgOSDisk r
  if rs.ram > m.ram ∨ ceil rs.cores > m.cores ∨ rs.disk > m.volume then .error .impossible
  else
    match r.flavor with
    | some name =>
      match get name with
      | none => .error .badFlavor
      | some f => if f.cores < ceil rs.cores ∨ f.ram < rs.ram then .error .impossible else .ok ()
    | none => (determineFlavor (picks (ceil r.cores) r.ram) failed none).map fun _ => ()

/-- cloud.go:86-98 `Quota`; a maximum of 0 stands for no limit -/
structure Quota where
  maxInstances : Int
  maxRAM : Int
  maxCores : Int
  maxVolume : Int
  usedInstances : Int
  usedRAM : Int
  usedCores : Int
  usedVolume : Int
  deriving DecidableEq, Repr

/-- what `checkQuota` reads of the scheduler: reservations (openstack.go:70-73), the configured maximum (66, with its value from
322-331) and the number of servers -/
structure Use where
  reservedInstances : Int := 0
  reservedCores : Int := 0
  reservedRAM : Int := 0
  reservedVolume : Int := 0
  quotaMaxInstances : Int := unquotad
  servers : Int := 0
  deriving DecidableEq, Repr

/-- openstack.go:731-754 -/
def remInstances (q : Quota) (u : Use) : Int :=
  let r := if q.maxInstances > 0 then q.maxInstances - q.usedInstances - u.reservedInstances else unquotad
  if r > 0 ∧ u.quotaMaxInstances > -1 ∧ u.quotaMaxInstances < q.maxInstances then
    let remaining := u.quotaMaxInstances - (u.servers + u.reservedInstances)
    if remaining < r then remaining else r
  else r

/-- openstack.go:755-763 -/
def remRAM (q : Quota) (u : Use) : Int := if q.maxRAM > 0 then q.maxRAM - q.usedRAM - u.reservedRAM else unquotad

/-- openstack.go:764-772 -/
def remCores (q : Quota) (u : Use) : Int := if q.maxCores > 0 then q.maxCores - q.usedCores - u.reservedCores else unquotad

/-- openstack.go:773-782 -/
def remVolume (q : Quota) (u : Use) (check : Bool) : Int :=
  if q.maxVolume > 0 ∧ check = true then q.maxVolume - q.usedVolume - u.reservedVolume else unquotad

/-- openstack.go:792, 796 and 801: divide and keep the lower one; `none` is division by zero -/
def lower (spawnable rem per : Int) : Option Int :=
  if per = 0 then none else some (if Int.tdiv rem per < spawnable then Int.tdiv rem per else spawnable)

/-- openstack.go:789-805 -/
def spawnable (ri rr rc rv : Int) (check : Bool) (f : Flv) (disk : Int) : Option Int :=
  if ri > 1 then do
    let n ← lower ri rr f.ram
    let n ← lower n rc f.cores
    if check then lower n rv disk else pure n
  else some ri

/-- openstack.go:711-807 `checkQuota` once the flavor is known and the quota was got: the number of servers that can be spawned; `none` is a panic -/
def checkQuota (q : Quota) (u : Use) (f : Flv) (disk : Int) : Option Int :=
  let check := decide (disk > f.disk)
  if remInstances q u < 1 ∨ remRAM q u < f.ram ∨ remCores q u < f.cores ∨ remVolume q u check < disk then some 0
  else spawnable (remInstances q u) (remRAM q u) (remCores q u) (remVolume q u check) check f disk

end Verif.Sched.Openstack
