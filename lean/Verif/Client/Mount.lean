/-!
# Mounting and unmounting the remote file systems of a job (jobqueue/job.go:597-789, client.go:745-763)

Simplifications: what the accessor, the mount and the unmount of the external library (muxfys) return is chosen by the
environment, an oracle; a file system whose mount fails is not mounted, and one whose unmount fails stays mounted. Paths are
lists of names without "." and "..", absolute or not, and "" is the relative path without names. Errors are told apart only
where the code does. The logs of the file systems and the removal of empty directories (job.go:777-786, `rmEmptyDirs`, modelled
in Client/Files.lean) are not here.
-/
namespace Verif.Client.Mount

structure Path where
  abs : Bool
  parts : List String
  deriving DecidableEq, Repr

/-- the empty string -/
def Path.empty : Path := ⟨false, []⟩

/-- `filepath.Join(base, rel)` for a clean relative path -/
def Path.join (base rel : Path) : Path := ⟨base.abs, base.parts ++ rel.parts⟩

/-- `filepath.Dir` of a clean path -/
def Path.dir (p : Path) : Path := ⟨p.abs, p.parts.dropLast⟩

/-- mount.go:67-133 -/
structure Target where
  profile : String := ""
  path : String
  cacheDir : Path := .empty
  cache : Bool := false
  write : Bool := false
  deriving DecidableEq, Repr

/-- mount.go:31-63 -/
structure Config where
  mount : Path := .empty
  cacheBase : Path := .empty
  retries : Int := 0
  verbose : Bool := false
  targets : List Target
  deriving DecidableEq, Repr

/-- the `muxfys.RemoteConfig` of job.go:640-645 -/
structure Remote where
  profile : String
  path : String
  cacheData : Bool
  cacheDir : Path
  write : Bool
  deriving DecidableEq, Repr

/-- a file system: the `muxfys.Config` of job.go:682-687 and what is mounted in it; `id` tells file systems apart -/
structure Fs where
  id : Nat
  mount : Path
  cacheBase : Path
  retries : Int
  verbose : Bool
  remotes : List Remote
  deriving DecidableEq, Repr

/-- the fields of a job that are read -/
structure Job where
  cwd : Path
  actualCwd : Path := .empty
  configs : List Config
  deriving Repr

/-- the environment of one call: does the accessor of a target come to be (job.go:615, 623), is the configuration of a file
system accepted (689) and does it get mounted (698), by their positions, and does the unmount of a file system work (758) -/
structure Env where
  accessor : Nat → Nat → Bool := fun _ _ => true
  new : Nat → Bool := fun _ => true
  mount : Nat → Bool := fun _ => true
  unmount : Fs → Bool := fun _ => true

/-- `tracked` is `j.mountedFS`. Ghosts: `up` is what is mounted on the machine, `next` the id of the next file system,
`uploaded` are those whose files were uploaded at their unmount, `watchers` counts the goroutines of job.go:717-729 that wait
for a signal, and `crashed` says that the process panicked. -/
structure S where
  tracked : List Fs := []
  up : List Fs := []
  next : Nat := 0
  uploaded : List Fs := []
  watchers : Nat := 0
  crashed : Bool := false
  deriving DecidableEq

/-- `fs.Unmount(doNotUpload)` of each file system in turn (job.go:757-762, 720-725): those that fail, and the state -/
def unmountAll (noUpload : Bool) (e : Env) : List Fs → S → List Fs × S
  | [], s => ([], s)
  | f :: fs, s =>
    if e.unmount f then
      unmountAll noUpload e fs { s with
        up := s.up.filter (· ≠ f), uploaded := if noUpload then s.uploaded else s.uploaded ++ [f] }
    else let r := unmountAll noUpload e fs s; (f :: r.1, r.2)

/-- job.go:747-775: `Unmount`: is there an error, and the state -/
def unmount (noUpload : Bool) (e : Env) (s : S) : Bool × S :=
  let r := unmountAll noUpload e s.tracked s
  (!r.1.isEmpty, { r.2 with tracked := [] })

/-- job.go:598-608: the directories that are used where a configuration gives none: working directory, mount point, base
of caches -/
def defaults (j : Job) (onCwd : Bool) : Path × Path × Path :=
  if j.actualCwd ≠ .empty then (j.actualCwd, j.actualCwd, j.actualCwd.dir)
  else if onCwd then (j.cwd, j.cwd, j.cwd.dir)
  else (j.cwd, j.cwd.join ⟨false, ["mnt"]⟩, j.cwd)

/-- what `Mount` collects: `uniqueCacheDirs` and `uniqueMountedDirs` (job.go:610-611) -/
structure Dirs where
  cache : List Path := []
  mounted : List Path := []
  deriving DecidableEq, Repr

/-- job.go:614-648: the targets of configuration `i` from target `k`: `none` if there was an error -/
def targets (e : Env) (base : Path) (i : Nat) : Nat → List Target → Dirs → Option (List Remote) × Dirs
  | _, [], d => (some [], d)
  | k, t :: ts, d =>
    if e.accessor i k then
      let rel := t.cacheDir ≠ .empty ∧ t.cacheDir.abs = false
      let dir := if rel then base.join t.cacheDir else t.cacheDir
      let d := if rel then { d with cache := d.cache ++ [dir] } else d
      let r := targets e base i (k + 1) ts d
      (r.1.map (⟨t.profile, t.path, t.cache, dir, t.write⟩ :: ·), r.2)
    else (none, d)

/-- job.go:664-674: the mount point of a configuration, and whether it is in the working directory -/
def mountPoint (cwd dflt : Path) (c : Config) : Path × Bool :=
  if c.mount ≠ .empty then (if c.mount.abs then (c.mount, false) else (cwd.join c.mount, true)) else (dflt, true)

/-- job.go:674-681 -/
def cacheBase (cwd dflt : Path) (c : Config) : Path :=
  if c.cacheBase ≠ .empty then (if c.cacheBase.abs then c.cacheBase else cwd.join c.cacheBase) else dflt

/-- job.go:612-711: the configurations from configuration `i` -/
def mounts (e : Env) (df : Path × Path × Path) : Nat → List Config → Dirs → S → Bool × Dirs × S
  | _, [], d, s => (false, d, s)
  | i, c :: cs, d, s =>
    let t := targets e df.2.2 i 0 c.targets d
    match t.1 with
    | none => (true, t.2, (unmount false e s).2)
    | some rs =>
      if rs.isEmpty then (true, t.2, (unmount false e s).2)
      else
        let m := mountPoint df.1 df.2.1 c
        let d := if m.2 then { t.2 with mounted := t.2.mounted ++ [m.1] } else t.2
        if e.new i && e.mount i then
          let f : Fs := ⟨s.next, m.1, cacheBase df.1 df.2.2 c, if c.retries > 0 then c.retries else 10, c.verbose, rs⟩
          mounts e df (i + 1) cs d { s with tracked := s.tracked ++ [f], up := s.up ++ [f], next := s.next + 1 }
        else (true, d, (unmount false e s).2)

/-- job.go:597-733: `Mount`: is there an error, the directories, and the state -/
def mount (onCwd : Bool) (e : Env) (j : Job) (s : S) : Bool × Dirs × S :=
  let r := mounts e (defaults j onCwd) 0 j.configs {} s
  if r.1 then r
  else if r.2.2.tracked.isEmpty then r
  else (false, r.2.1, { r.2.2 with watchers := r.2.2.watchers + 1 })

/-- job.go:717-729: a signal (SIGINT or SIGTERM) comes to a goroutine that waits: it unmounts what is tracked. Without a
failure `merr` is a nil pointer, and `merr.Errors` panics; with one there is the `panic(merr)`. -/
def signal (e : Env) (s : S) : S :=
  if s.watchers = 0 then s
  else
    let r := unmountAll true e s.tracked s
    if r.1.isEmpty then { r.2 with crashed := true }   -- nil pointer
    else { r.2 with crashed := true }                  -- panic(merr)

/-- client.go:745-763: how `Execute` mounts: if there is an error of fusermount (`fuse`), it tries again, without `onCwd` -/
def mountTwice (onCwd fuse : Bool) (e₁ e₂ : Env) (j : Job) (s : S) : Bool × Dirs × S :=
  let r := mount onCwd e₁ j s
  if r.1 && fuse then mount false e₂ j r.2.2 else r

/-- what can happen to the mounts of a job -/
inductive Ev where
  | mount (onCwd : Bool) (e : Env)
  | unmount (noUpload : Bool) (e : Env)

def step (j : Job) (s : S) : Ev → S
  | .mount o e => (mount o e j s).2.2
  | .unmount n e => (unmount n e s).2

def run (j : Job) (s : S) (es : List Ev) : S := es.foldl (step j) s

end Verif.Client.Mount
