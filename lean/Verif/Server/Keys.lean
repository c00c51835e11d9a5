import Verif.Server.Groups

/-!
# Model of what job keys are computed from

`/repo/jobqueue/job.go:852-872` `Job.Key`, `/repo/jobqueue/job.go:1009-1018` `JobEssence.Key` and
`/repo/jobqueue/mount.go:157-192` `MountConfigs.Key`. The key itself is `byteKey` (a 128 bit hash,
utils.go:102-105) of the string modelled here: what two different strings are given is up to the
hash function, which is not modelled.
-/

namespace Verif.Server.Keys
open Verif.Server.Groups (Str strLt)

/-- mount.go:66-128 `MountTarget`: the fields used. -/
structure Target where
  profile : Str
  path : Str
  deriving DecidableEq, Repr

/-- mount.go:29-62 `MountConfig`: the fields used. -/
structure Mount where
  mount : Str
  targets : List Target
  deriving DecidableEq, Repr

/-- mount.go:180-188: one target. -/
def targetKey (t : Target) : Str :=
  (if t.profile = [] then "default".toList else t.profile) ++ '-' :: (t.path ++ [';'])

/-- mount.go:172-189: one mount. -/
def mountKey (m : Mount) : Str :=
  (if m.mount = [] then "mnt".toList else m.mount) ++ ':' :: (m.targets.map targetKey).flatten

/-- Insertion in a list sorted by `Mount`. -/
def insertM (m : Mount) : List Mount → List Mount
  | [] => [m]
  | n :: ns => if strLt n.mount m.mount then n :: insertM m ns else m :: n :: ns

/-- mount.go:164-168 `sort.Slice`. (Go's algorithm differs; the order of mounts with equal `Mount`
is unspecified there.) -/
def sortM : List Mount → List Mount
  | [] => []
  | m :: ms => insertM m (sortM ms)

/-- mount.go:157-192 `MountConfigs.Key`. -/
def mountsKey (ms : List Mount) : Str := ((sortM ms).map mountKey).flatten

/-- job.go:87-340 `Job`: the fields that go into the key. -/
structure JobId where
  cmd : Str
  cwd : Str
  cwdMatters : Bool
  mounts : List Mount
  docker : Str
  singularity : Str
  containerMounts : Str
  deriving DecidableEq, Repr

/-- job.go:859-865: the container image. -/
def image (j : JobId) : Str :=
  if j.docker ≠ [] then "docker:".toList ++ j.docker
  else if j.singularity ≠ [] then "singularity:".toList ++ j.singularity
  else []

/-- job.go:852-872 `Job.Key`: the string that is hashed. -/
def keyString (j : JobId) : Str :=
  let c := j.cmd ++ '.' :: mountsKey j.mounts
  let c := if j.cwdMatters then j.cwd ++ '.' :: c else c
  if image j ≠ [] then c ++ '.' :: (image j ++ '.' :: j.containerMounts) else c

/-- job.go:985-1007 `JobEssence`, with `JobKey` not set. -/
structure Essence where
  cmd : Str
  cwd : Str
  mounts : List Mount
  deriving DecidableEq, Repr

/-- job.go:1009-1018 `JobEssence.Key`: the string that is hashed. -/
def essenceString (e : Essence) : Str :=
  if e.cwd ≠ [] then e.cwd ++ '.' :: (e.cmd ++ '.' :: mountsKey e.mounts)
  else e.cmd ++ '.' :: mountsKey e.mounts

end Verif.Server.Keys
