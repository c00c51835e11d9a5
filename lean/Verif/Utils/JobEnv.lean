import Verif.Utils.Model

/-!
# The environment a command runs with

jobqueue/job.go 395-516 (containerMounts, containerEnv, Env, envCurrentOverrides, EnvAddOverride), the part of
Client.Execute that makes `cmd.Env` (jobqueue/client.go 813-887), and the loop of `wr runner` that adds its own
overrides (cmd/runner.go 145-246).  Compressing and encoding of environments is taken to be the identity; an environment
that cannot be decoded is not modelled.  Every range over a Go map takes its own order: a function `Order`.
-/

namespace Verif.Utils.JobEnv

open Verif.Util

/-- An entry of `os.Environ`: `NAME=value`. -/
abbrev Var := List Char

/-- The order in which one range over the map of envOverride yields its entries. -/
abbrev Order := List (Var × Var) → List (Var × Var)

/-- The fields of a Job that decide its environment.  `stored` is the decoded EnvC (`none`: EnvC has no bytes), `over`
the decoded EnvOverride (job.go:491-507; `[]` if EnvOverride has no bytes). -/
structure Job where
  stored : Option (List Var)
  retrieved : Bool
  over : List Var
deriving DecidableEq, Repr

/-- job.go:451-453 and 480-482: overrides are applied only if there are any. -/
def applied (p : Order) (env over : List Var) : List Var :=
  if over.length > 0 then envOverride p env over else env

/-- Job.Env (job.go:447-487); `cur` is os.Environ of the calling process. -/
def env (p : Order) (cur : List Var) (j : Job) : List Var :=
  match j.stored with
  | none => if j.retrieved then applied p cur j.over else []
  | some s => applied p (if s.length = 0 then cur else s) j.over

/-- Job.EnvAddOverride (job.go:506-516). -/
def addOverride (p : Order) (new : List Var) (j : Job) : Job := { j with over := envOverride p j.over new }

/-- Job.containerMounts (job.go:395-401). -/
def containerMounts (m : List Char) : List (List Char) := if m = [] then [] else split ',' m

/-- Job.containerEnv (job.go:405-419): what is handed to `docker run -e`. -/
def containerEnv (j : Job) : List (List Char) := j.over.map fun e => (split ':' e).headD []

/-! ## the runner -/

/-- `strings.Contains(s, sub)` -/
def contains (sub : List Char) : List Char → Bool
  | [] => sub.isPrefixOf []
  | c :: cs => sub.isPrefixOf (c :: cs) || contains sub cs

/-- runner.go:147-156: the overrides a runner starts with; `[]` if it was not told of a server. -/
def overrides0 (server domain : List Char) : List Var :=
  if server = [] then []
  else
    (match split ':' server with
      | [h, p] => ["WR_MANAGERHOST=".toList ++ h, "WR_MANAGERPORT=".toList ++ p]
      | _ => []) ++ ["WR_MANAGERCERTDOMAIN=".toList ++ domain]

/-- runner.go:229-237: the overrides after looking for PATH in the environment of the job; `none` is the panic of
`pair[1]`. -/
def addPath (exe : List Char) (o : List Var) : List Var → Option (List Var)
  | [] => some o
  | e :: es =>
    if envName e = "PATH".toList then
      match (split '=' e)[1]? with
      | none => none
      | some v => some (if contains exe v then o else o ++ [e ++ ':' :: exe])
    else addPath exe o es

/-- A job the runner reserves, with the orders its three calls of envOverride see. -/
structure Task where
  job : Job
  p1 : Order
  p2 : Order
  p3 : Order

/-- runner.go:216-247 for one job: the overrides from now on (the variable is declared outside the loop) and the job
as it is handed to Execute. -/
def prepare (cur : List Var) (exe : List Char) (o : List Var) (t : Task) : Option (List Var × Job) :=
  if o.length > 0 then
    match addPath exe o (env t.p1 cur t.job) with
    | none => none
    | some o' => some (o', addOverride t.p2 o' t.job)
  else some (o, t.job)

/-- The loop of runner.go:178-267 over the jobs it reserves: for each, what Env gives inside Execute (client.go:813);
`none` is the panic, after which there is no runner. -/
def runner (cur : List Var) (exe : List Char) : List Var → List Task → List (Option (List Var))
  | _, [] => []
  | o, t :: ts =>
    match prepare cur exe o t with
    | none => [none]
    | some (o', j) => some (env t.p3 cur j) :: runner cur exe o' ts

/-! ## Execute -/

/-- What Execute knows: `tmpDir` is empty if the job's Cwd matters, `lsf` (prependPath) if not in bsub mode. -/
structure Ctx where
  tmpDir : List Char
  actualCwd : List Char
  changeHome : Bool
  lsf : List Char
  config : List Char
  host : List Char
  port : List Char
  shell : List Char

/-- client.go:845-854: the PATH with the directory of the symlinks in front; `none` is the panic of `pair[1]`. -/
def lsfPath (lsf : List Char) : List Var → Option Var
  | [] => some ("PATH=".toList ++ lsf)
  | e :: es =>
    if envName e = "PATH".toList then
      match (split '=' e)[1]? with
      | none => none
      | some v => some ("PATH=".toList ++ lsf ++ ':' :: v)
    else lsfPath lsf es

/-- client.go:877-886 -/
def lsfVars (c : Ctx) : List Var :=
  ["WR_BSUB_CONFIG=".toList ++ c.config, "WR_MANAGER_HOST=".toList ++ c.host, "WR_MANAGER_PORT=".toList ++ c.port,
    "LSF_SERVERDIR=/dev/null".toList, "LSF_LIBDIR=/dev/null".toList, "LSF_ENVDIR=/dev/null".toList,
    "LSF_BINDIR=".toList ++ c.lsf, "SHELL=".toList ++ c.shell]

/-- client.go:827-843 -/
def tmpVars (p1 p2 : Order) (c : Ctx) (e : List Var) : List Var :=
  if c.tmpDir = [] then e
  else
    let e := envOverride p1 e ["TMPDIR=".toList ++ c.tmpDir]
    if c.changeHome then envOverride p2 e ["HOME=".toList ++ c.actualCwd] else e

/-- `cmd.Env` (client.go:827-888) from the result of Env. -/
def execEnv (p1 p2 p3 p4 : Order) (c : Ctx) (e : List Var) : Option (List Var) :=
  let e := tmpVars p1 p2 c e
  if c.lsf = [] then some e
  else
    match lsfPath c.lsf e with
    | none => none
    | some path => some (envOverride p4 (envOverride p3 e [path]) (lsfVars c))

end Verif.Utils.JobEnv
