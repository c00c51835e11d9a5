import Verif.Sched.Openstack
/-!
# Spawning servers in the background (jobqueue/scheduler/openstack.go:618-693 and 856-1050, cloud/openstack.go:774-864)

A spawn is a goroutine started by `spawnMultiple`. Its steps, and the callback that runs in a goroutine of its own (cloud.go:689-695), interleave
freely with calls of `spawnMultiple`, of `stateUpdate`, and with servers being destroyed. Simplification: what others use of the quota is fixed.
-/
namespace Verif.Sched.Spawn
open Verif.Cloud.Flavors (Flv)
open Verif.Sched.Openstack (Quota Use checkQuota)

/-- one run of `spawn`. `started`: it has made its reservation (866-873); `held`: the reservation was not given back; `requested`: the request for the server was
made (cloud/openstack.go:827-849); `alive`: the server exists; `done`: `spawn` returned; `registered`: the server is in `s.servers`.
`real` is the size of the disk asked for in the end, which can be more than `disk` (cloud/openstack.go:788-790). -/
structure Sp where
  cmd : String
  flavor : Flv
  disk : Int
  real : Int
  started : Bool := false
  held : Bool := false
  requested : Bool := false
  alive : Bool := false
  done : Bool := false
  registered : Bool := false
  deriving DecidableEq, Repr

/-- size of the volume for a disk of that size (openstack.go:860 and 870, cloud/openstack.go:827) -/
def volume (f : Flv) (disk : Int) : Int := if disk > f.disk then disk else 0

/-- `quota` has the maxima and what others use. `use` has the reservations; its number of servers is that of those that are not in `spawns`,
such as the local host. `simul` is the configured number of simultaneous spawns. -/
structure S where
  quota : Quota
  use : Use := {}
  simul : Int := 0
  spawns : List Sp := []
  deriving DecidableEq, Repr

/-- sum over the spawns -/
def total (w : Sp → Int) : List Sp → Int
  | [] => 0
  | s :: l => w s + total w l

/-- what `GetQuota` returns: what others use and the servers that exist -/
def S.getQuota (s : S) : Quota :=
  { s.quota with
    usedInstances := s.quota.usedInstances + total (fun p => if p.alive then 1 else 0) s.spawns
    usedRAM := s.quota.usedRAM + total (fun p => if p.alive then p.flavor.ram else 0) s.spawns
    usedCores := s.quota.usedCores + total (fun p => if p.alive then p.flavor.cores else 0) s.spawns
    usedVolume := s.quota.usedVolume + total (fun p => if p.alive then volume p.flavor p.real else 0) s.spawns }

/-- what `checkQuota` reads: the reservations and `len(s.servers)` -/
def S.getUse (s : S) : Use :=
  { s.use with servers := s.use.servers + total (fun p => if p.registered then 1 else 0) s.spawns }

/-- openstack.go:627-633, the spawns going on: in all, and for the command -/
def S.spawningTotal (s : S) : Int := total (fun p => if p.done then 0 else 1) s.spawns
def S.spawningCmd (s : S) (cmd : String) : Int := total (fun p => if p.done = false ∧ p.cmd = cmd then 1 else 0) s.spawns

/-- openstack.go:659-677, how many to spawn: `desired` runs, `per` of which fit on a server; none if not positive -/
def todo (desired per spawnable spawningCmd simul spawningTotal : Int) : Int :=
  let needed := -(Int.fdiv (-desired) per) - spawningCmd
  if needed ≤ 0 then 0
  else
    let t := if spawnable < needed then spawnable else needed
    if simul > 0 then (if simul - spawningTotal < t then simul - spawningTotal else t) else t

/-- openstack.go:623-693 `spawnMultiple`, given the flavor it determined, how many of the commands run on one, and the size of the disk the image
will ask for; `none` is a panic (including that of a division by zero) -/
def spawnMultiple (s : S) (cmd : String) (f : Flv) (disk real desired per : Int) : Option S :=
  if s.simul > 0 ∧ s.spawningTotal ≥ s.simul then some s
  else
    match checkQuota s.getQuota s.getUse f disk with
    | none => none
    | some n =>
      if n = 0 ∨ per = 0 then some s
      else
        let t := todo desired per n (s.spawningCmd cmd) s.simul s.spawningTotal
        some { s with spawns := s.spawns ++ List.replicate t.toNat { cmd, flavor := f, disk, real } }

inductive Ev where
  | spawnMultiple (cmd : String) (f : Flv) (disk real desired per : Int)
  /-- the goroutine makes its reservation (866-873) -/
  | start (i : Nat)
  /-- the image or flavor is unknown, so `Spawn` returns without using the channel (cloud.go:684-686, cloud/openstack.go:776-784) -/
  | unknown (i : Nat)
  /-- the request was made, and worked or not (cloud/openstack.go:827-857) -/
  | request (i : Nat) (ok : Bool)
  /-- the callback gives the reservation back (openstack.go:880-889) -/
  | callback (i : Nat)
  /-- `spawn` returns: with a server that works, or having destroyed it (1022-1050) -/
  | finish (i : Nat) (ok : Bool)
  /-- `stateUpdate` (1216-1247): servers that are done get registered, and those that were destroyed are dropped -/
  | stateUpdate
  /-- the server is destroyed -/
  | destroy (i : Nat)
  deriving Repr

/-- openstack.go:866-873 -/
def reserve (u : Use) (p : Sp) : Use :=
  { u with
    reservedInstances := u.reservedInstances + 1, reservedCores := u.reservedCores + p.flavor.cores
    reservedRAM := u.reservedRAM + p.flavor.ram, reservedVolume := u.reservedVolume + volume p.flavor p.disk }

/-- openstack.go:880-889 -/
def giveBack (u : Use) (p : Sp) : Use :=
  { u with
    reservedInstances := u.reservedInstances - 1, reservedCores := u.reservedCores - p.flavor.cores
    reservedRAM := u.reservedRAM - p.flavor.ram, reservedVolume := u.reservedVolume - volume p.flavor p.disk }

/-- what a step of one spawn does to it and to the reservations, if it can take place -/
def act (ev : Ev) (p : Sp) (u : Use) : Option (Sp × Use) :=
  match ev with
  | .start _ => if p.started = false then some ({ p with started := true, held := true }, reserve u p) else none
  | .unknown _ => if p.started = true ∧ p.requested = false ∧ p.done = false then some ({ p with done := true }, u) else none
  | .request _ ok => if p.started = true ∧ p.requested = false ∧ p.done = false then some ({ p with requested := true, alive := ok }, u) else none
  | .callback _ => if p.requested = true ∧ p.held = true then some ({ p with held := false }, giveBack u p) else none
  | .finish _ ok => if p.requested = true ∧ p.done = false then some ({ p with done := true, alive := p.alive && ok }, u) else none
  | .destroy _ => if p.done = true ∧ p.alive = true then some ({ p with alive := false }, u) else none
  | _ => none

/-- a step of spawn number `i`; nothing happens if it cannot take place -/
def S.one (s : S) (i : Nat) (ev : Ev) : S :=
  match s.spawns[i]? with
  | none => s
  | some p =>
    match act ev p s.use with
    | none => s
    | some (p', u') => { s with spawns := s.spawns.set i p', use := u' }

/-- `none` is a panic -/
def step (s : S) (ev : Ev) : Option S :=
  match ev with
  | .spawnMultiple cmd f disk real desired per => spawnMultiple s cmd f disk real desired per
  | .stateUpdate => some { s with spawns := s.spawns.map fun p => { p with registered := p.done && p.alive } }
  | .start i => some (s.one i ev)
  | .unknown i => some (s.one i ev)
  | .request i _ => some (s.one i ev)
  | .callback i => some (s.one i ev)
  | .finish i _ => some (s.one i ev)
  | .destroy i => some (s.one i ev)

def run : S → List Ev → Option S
  | s, [] => some s
  | s, e :: es => (step s e).bind fun s' => run s' es

end Verif.Sched.Spawn
