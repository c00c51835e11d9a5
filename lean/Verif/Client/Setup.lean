/-!
# The beginning of Execute (jobqueue/client.go:563-977, utils.go:456-521)

What a client does with a job it reserved until the command of the job runs and the server knows that it does.

Simplifications: each thing that may fail is a flag chosen by the environment. Only what is left behind, what the server is
told, and what is done to the command is kept. Whether the server takes what it is told is not modelled (Execute.lean has
that). The environment variables are those of Utils/JobEnv.lean, mounting is in Client/Mount.lean.
-/
namespace Verif.Client.Setup

/-- the fields of the job that decide what is to be done -/
structure Job where
  cwdMatters : Bool := false
  /-- `BsubMode` is set -/
  bsub : Bool := false
  /-- there are `MountConfigs` -/
  mounts : Bool := false
  /-- `MonitorDocker` is set -/
  docker : Bool := false
  /-- `MonitorDocker` is "?" -/
  dockerFirst : Bool := false
  deriving DecidableEq, Repr

/-- what works -/
structure Env where
  /-- this client reserved the job (client.go:569) -/
  mine : Bool := true
  /-- `job.CmdLine` (575) -/
  cmdLine : Bool := true
  /-- the pipes for the output (602, 608) -/
  pipes : Bool := true
  /-- the working directory is there, or could be made (617-628) -/
  cwd : Bool := true
  /-- `mkHashedDir` (635) -/
  hashed : Bool := true
  /-- the directory for the links that stand for LSF (699) -/
  lsfDir : Bool := true
  /-- the links (721, 1538-1581) -/
  symlinks : Bool := true
  /-- `job.Mount` (746) -/
  mount : Bool := true
  /-- its error is one of fusermount (748), and the second try works (752) -/
  fuse : Bool := false
  again : Bool := true
  /-- the job is the child of one on the same host (737-740) -/
  couldFail : Bool := false
  /-- `job.Env` (813) -/
  env : Bool := true
  /-- the JSON for `WR_BSUB_CONFIG` (871) -/
  json : Bool := true
  /-- the docker client (902), and its list of containers (919) -/
  docker : Bool := true
  remember : Bool := true
  /-- `cmd.Start()` (941) -/
  start : Bool := true
  /-- `c.Started` (963) -/
  started : Bool := true
  deriving DecidableEq, Repr

/-- `FailReason…` (client.go:58-77), or the text of client.go:873 -/
inductive Reason where
  | cwd | mount | env | json | docker | start
  deriving DecidableEq, Repr

inductive Told where
  | bury (r : Reason)
  | release (r : Reason)
  deriving DecidableEq, Repr

structure Out where
  /-- `Execute` has returned, with an error -/
  failed : Bool := false
  /-- what the server was told, other than that the command runs -/
  told : List Told := []
  /-- directories that are there: the unique working directory, the one for temporary files, the one for the LSF links -/
  work : Bool := false
  tmp : Bool := false
  lsf : Bool := false
  /-- file systems are mounted -/
  mounted : Bool := false
  /-- the command was started; it was killed -/
  started : Bool := false
  killed : Bool := false
  /-- behaviours triggered (true: those for success) -/
  triggered : List Bool := []
  deriving DecidableEq, Repr

/-- `return` with an error: the deferred functions run: the LSF directory goes (client.go:710-719), and the one for temporary
files if its removal was deferred already (829-839) -/
def Out.fail (o : Out) (deferredTmp : Bool) : Out :=
  { o with failed := true, lsf := false, tmp := o.tmp && !deferredTmp }

def Out.tell (o : Out) (t : Told) : Out := { o with told := o.told ++ [t] }

/-- client.go:941-977: starting the command -/
def launch (e : Env) (o : Out) : Out :=
  if !e.start then ({ o.tell (.release .start) with mounted := false }).fail true
  else if !e.started then
    ({ o with started := true, killed := true, triggered := o.triggered ++ [false], mounted := false }).fail true
  else { o with started := true }

/-- client.go:892-930: docker -/
def docker (j : Job) (e : Env) (o : Out) : Out :=
  if j.docker && !e.docker then (o.tell (.bury .docker)).fail true
  else if j.docker && j.dockerFirst && !e.remember then (o.tell (.bury .docker)).fail true
  else launch e o

/-- client.go:808-888: the environment of the command -/
def environ (j : Job) (e : Env) (o : Out) : Out :=
  if !e.env then ({ o.tell (.bury .env) with mounted := false }).fail false
  else if j.bsub && !e.json then (o.tell (.bury .json)).fail true
  else docker j e o

/-- client.go:727-763: mounting. What a failed `Mount` mounted it has unmounted. -/
def mount (j : Job) (e : Env) (o : Out) : Out :=
  if !j.mounts || e.mount then environ j e { o with mounted := j.mounts }
  else if e.couldFail then environ j e o
  else if e.fuse && e.again then environ j e { o with mounted := true }
  else (o.tell (.bury .mount)).fail false

/-- client.go:692-725: links that stand for LSF -/
def links (j : Job) (e : Env) (o : Out) : Out :=
  if !j.bsub then mount j e o
  else if !e.lsfDir then (o.tell (.bury .cwd)).fail false
  else if !e.symlinks then (({ o with lsf := true }).tell (.bury .cwd)).fail false
  else mount j e { o with lsf := true }

/-- client.go:614-650: the working directory -/
def workDir (j : Job) (e : Env) (o : Out) : Out :=
  if !e.cwd then (o.tell (.bury .cwd)).fail false
  else if j.cwdMatters then links j e o
  else if !e.hashed then (o.tell (.bury .cwd)).fail false
  else links j e { o with work := true, tmp := true }

/-- client.go:563-612 -/
def setup (j : Job) (e : Env) : Out :=
  if !e.mine then ({} : Out).fail false
  else if !e.cmdLine then ({} : Out).fail false
  else if !e.pipes then ({} : Out).fail false
  else workDir j e {}

/-! ## Making the working directory -/

/-- how one round of the loop of utils.go:470-500 goes: `os.MkdirAll` fails; it works and the hold file cannot be opened; it
can be opened, and not closed; all works -/
inductive Round where
  | noDir | noHold | noClose | good
  deriving DecidableEq, Repr

/-- utils.go:469-500: the loop, with `tries`: `none` if it goes on after the given rounds, else whether it worked -/
def hold : Nat → List Round → Option Bool
  | _, [] => none
  | tries, .noDir :: rs => if tries + 1 ≤ 3 then hold (tries + 1) rs else some false
  | _, .noHold :: rs => if 0 + 1 ≤ 3 then hold (0 + 1) rs else some false   -- `tries = 0` at utils.go:484
  | _, .noClose :: _ => some false
  | _, .good :: _ => some true

end Verif.Client.Setup
