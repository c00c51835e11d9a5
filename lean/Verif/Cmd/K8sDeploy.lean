/-!
# `wr k8s deploy` and `wr k8s teardown` (cmd/kubernetes.go:200-545, 547-748, kubernetes/client/kubernetes.go)

First what is made in the cluster and what is deleted, then what happens to the database of the manager. Simplified: names are numbers, and the
names that the cluster generates for config maps and role bindings count up; a namespace that is deleted is gone at once, with all in it;
the daemonised child, which starts the command again, decides as its parent did; pods are those of C135 and not here.
-/
namespace Verif.Cmd.K8sDeploy

abbrev Ns := Nat

/-- what `wr` keeps in `kubernetes_resources`: the namespace, and the config maps of the runners and of the manager -/
structure File where
  ns : Ns
  cm : Nat
  mcm : Nat
  deriving DecidableEq

/-- the deployment `wr-manager` -/
structure Dep where
  ns : Ns
  /-- the config map that is mounted in its pod -/
  mcm : Nat
  /-- the config map that its command names, for runners -/
  cm : Nat
  deriving DecidableEq

structure World where
  nss : List Ns
  maps : List (Ns × Nat)
  deps : List Dep
  svcs : List Ns
  /-- cluster role bindings: name, and the namespace in the label -/
  crbs : List (Nat × Ns)
  /-- the resource file -/
  file : Option File
  /-- the next name that is generated -/
  next : Nat
  deriving DecidableEq

def World.init : World := { nss := [], maps := [], deps := [], svcs := [], crbs := [], file := none, next := 0 }

/-- calls that can fail -/
inductive Call where
  | getDep
  | createNs
  | createMap
  | createMgrMap
  | save
  | createCrb
  | createDep
  | createSvc
  | delNs
  | listCrb
  | delCrb
  deriving DecidableEq

inductive Res where
  /-- `die` -/
  | died
  | panicked
  | deployed (ns : Ns)
  | reconnected (ns : Ns)
  /-- "deleted all kubernetes resources previously created" -/
  | tornDown
  deriving DecidableEq

def hasDep (w : World) (ns : Ns) : Bool := w.deps.any fun d => d.ns = ns

/-- client/kubernetes.go:708-718 `CheckWRDeploymentExists`, 723-739 `CheckWRDeploymentHealthy` and cmd/kubernetes.go:285-296, 314-326:
    `none` is `die`, else if a deployment is to be made -/
def exam (fails : Call → Bool) (healthy : Bool) (w : World) (ns : Ns) : Option Bool :=
  if fails .getDep then none else if !hasDep w ns then some true else if healthy then some false else none

/-- cmd/kubernetes.go:282-328 `kubeDeploy` -/
def kubeDeploy (fails : Call → Bool) (healthy : Bool) (flag : Option Ns) (w : World) : Option Bool :=
  match flag with
  | some x => exam fails healthy w x
  | none =>
    match w.file with
    | none => some true
    | some f => exam fails healthy w f.ns

/-- client/kubernetes.go:235-252 `Initialize` with a namespace: it is made if it is not there -/
def initNs (fails : Call → Bool) (w : World) (ns : Ns) : Option World :=
  if ns ∈ w.nss then some w else if fails .createNs then none else some { w with nss := ns :: w.nss }

/-- client/kubernetes.go:253-269 `Initialize` without: a random name. A name that is taken is not tried again, since that is not a conflict
    for `RetryOnConflict`. -/
def initRandom (fails : Call → Bool) (w : World) (ns : Ns) : Option World :=
  if ns ∈ w.nss then none else if fails .createNs then none else some { w with nss := ns :: w.nss }

/-- cmd/kubernetes.go:431-435: the namespace that was given, else a random one -/
def initAny (fails : Call → Bool) (w : World) (flag : Option Ns) (random : Ns) : Option (World × Ns) :=
  match flag with
  | some x => (initNs fails w x).map fun w1 => (w1, x)
  | none => (initRandom fails w random).map fun w1 => (w1, random)

/-- client/kubernetes.go:627-660 `NewConfigMap` -/
def newMap (w : World) (ns : Ns) : World × Nat := ({ w with maps := (ns, w.next) :: w.maps, next := w.next + 1 }, w.next)

/-- cmd/kubernetes.go:419-470: the namespace, the config maps and the resource file; the result has what the child goes on with.
    `same` is if the two scripts are the same text. If the file cannot be written there is only a warning. -/
def prepare (fails : Call → Bool) (same : Bool) (flag : Option Ns) (random : Ns) (w : World) : World × Option File :=
  match w.file with
  | some f =>
    match initNs fails w f.ns with
    | none => (w, none)
    | some w1 => (w1, some f)
  | none =>
    match initAny fails w flag random with
    | none => (w, none)
    | some (w1, ns) =>
      if fails .createMap then (w1, none)
      else
        let (w2, cm) := newMap w1 ns
        if same then
          let f : File := { ns := ns, cm := cm, mcm := cm }
          (if fails .save then w2 else { w2 with file := some f }, some f)
        else if fails .createMgrMap then (w2, none)
        else
          let (w3, mcm) := newMap w2 ns
          let f : File := { ns := ns, cm := cm, mcm := mcm }
          (if fails .save then w3 else { w3 with file := some f }, some f)

/-- client/kubernetes.go:307-475 `Deploy` -/
def create (fails : Call → Bool) (f : File) (w : World) : World × Bool :=
  if fails .createCrb then (w, false)
  else
    let w1 := { w with crbs := w.crbs ++ [(w.next, f.ns)], next := w.next + 1 }
    if fails .createDep || hasDep w1 f.ns then (w1, false)
    else
      let w2 := { w1 with deps := { ns := f.ns, mcm := f.mcm, cm := f.cm } :: w1.deps }
      if fails .createSvc || f.ns ∈ w2.svcs then (w2, false) else ({ w2 with svcs := f.ns :: w2.svcs }, true)

/-- cmd/kubernetes.go:200-545 `wr k8s deploy` -/
def deploy (fails : Call → Bool) (healthy same : Bool) (flag : Option Ns) (random : Ns) (w : World) : World × Res :=
  match kubeDeploy fails healthy flag w with
  | none => (w, .died)
  | some new =>
    match prepare fails same flag random w with
    | (w1, none) => (w1, .died)
    | (w1, some f) =>
      if new then
        match create fails f w1 with
        | (w2, true) => (w2, .deployed f.ns)
        | (w2, false) => (w2, .died)
      else (w1, .reconnected f.ns)

/-- a namespace is deleted -/
def delNs (ns : Ns) (w : World) : World :=
  { w with
    nss := w.nss.filter (fun x => x ≠ ns), maps := w.maps.filter (fun x => x.1 ≠ ns), deps := w.deps.filter (fun x => x.ns ≠ ns),
    svcs := w.svcs.filter fun x => x ≠ ns }

/-- client/kubernetes.go:587-608 `TearDown`; `none` is a panic, and else if there was no error -/
def tearCluster (fails : Call → Bool) (ns : Ns) (w : World) : World × Option Bool :=
  if fails .delNs || !decide (ns ∈ w.nss) then (w, some false)
  else
    let w1 := delNs ns w
    if fails .listCrb then (w1, some false)
    else
      match w1.crbs.filter fun x => x.2 = ns with
      | [] => (w1, none)
      | b :: _ => if fails .delCrb then (w1, some false) else ({ w1 with crbs := w1.crbs.filter fun x => x.1 ≠ b.1 }, some true)

/-- cmd/kubernetes.go:588-745 `wr k8s teardown`; `stopped` is if the manager was shut down, or could not be and there is `--force` -/
def teardown (fails : Call → Bool) (stopped : Bool) (flag : Option Ns) (w : World) : World × Res :=
  match w.file with
  | none => (w, .died)
  | some f =>
    if !stopped then (w, .died)
    else
      match tearCluster fails (flag.getD f.ns) w with
      | (w1, none) => (w1, .panicked)
      | (w1, some false) => (w1, .died)
      | (w1, some true) => ({ w1 with file := none }, .tornDown)

inductive Ev where
  | deploy (fails : Call → Bool) (healthy same : Bool) (flag : Option Ns) (random : Ns)
  | teardown (fails : Call → Bool) (stopped : Bool) (flag : Option Ns)
  /-- the user makes a namespace -/
  | mkNs (ns : Ns)
  /-- the user deletes a namespace -/
  | rmNs (ns : Ns)

def step (w : World) : Ev → World × Option Res
  | .deploy fails healthy same flag random => ((deploy fails healthy same flag random w).1, some (deploy fails healthy same flag random w).2)
  | .teardown fails stopped flag => ((teardown fails stopped flag w).1, some (teardown fails stopped flag w).2)
  | .mkNs ns => (if ns ∈ w.nss then w else { w with nss := ns :: w.nss }, none)
  | .rmNs ns => (delNs ns w, none)

def run (w : World) : List Ev → World
  | [] => w
  | e :: es => run (step w e).1 es

/-! ## The history -/

abbrev Hist := List Nat

structure HW where
  /-- `config.ManagerDBFile` -/
  loc : Option Hist
  /-- the backup in S3 -/
  bk : Option Hist
  /-- the database in the pod of the manager -/
  pod : Option Hist
  /-- all that was ever recorded -/
  done : Hist
  deriving DecidableEq

def HW.init : HW := { loc := none, bk := none, pod := none, done := [] }

/-- db.go:143-362 `initDB`: the backup is used if there is no database -/
def startDb (db bk : Option Hist) : Hist := db.getD (bk.getD [])

/-- what the manager knows: the one in the pod, or one that is started locally -/
def history (w : HW) : Hist :=
  match w.pod with
  | some h => h
  | none => startDb w.loc w.bk

structure TearEnv where
  /-- the manager can be connected to -/
  connects : Bool
  renames : Bool
  backup : Bool
  shutdown : Bool
  force : Bool
  deriving DecidableEq

/-- what is said about the local database -/
inductive Msg where
  | nothing
  /-- "and local database updated" -/
  | updated
  /-- "the local database will be updated from S3 if manager started locally" -/
  | fromS3
  deriving DecidableEq

/-- cmd/kubernetes.go:610-677, 724: the world, and what is said when the manager was shut down. Line 622 looks at `err`, which is nil there,
    and not at `errf`. -/
def tear (s3 : Bool) (e : TearEnv) (w : HW) : HW × Option Msg :=
  match w.pod with
  | none => (w, none)
  | some h =>
    if e.connects then
      let w1 := if s3 then (if e.renames then { w with loc := none } else w) else if e.backup then { w with loc := some h } else w
      let msg : Msg := if s3 then (if w.loc.isSome then .fromS3 else .nothing) else .updated
      if !s3 && !e.backup && !e.force then (w, none)
      else if e.shutdown then ({ w1 with pod := none }, some msg)
      else if e.force then ({ w1 with pod := none }, none) else (w1, none)
    else if e.force then ({ w with pod := none }, none) else (w, none)

inductive HEv where
  | work (x : Nat)
  | localWork (x : Nat)
  /-- `wr k8s deploy`: a new pod has no database (cmd/kubernetes.go:500-510 has the files that are copied); it starts with the backup in S3 -/
  | deploy
  /-- the pod is lost, and the deployment makes another -/
  | podLost
  | tear (e : TearEnv)

def hstep (s3 : Bool) (w : HW) : HEv → Option HW
  | .work x =>
    match w.pod with
    | none => none
    | some h => some { w with pod := some (h ++ [x]), bk := if s3 then some (h ++ [x]) else w.bk, done := w.done ++ [x] }
  | .localWork x =>
    match w.pod with
    | some _ => none
    | none =>
      let h := startDb w.loc w.bk ++ [x]
      some { w with loc := some h, bk := if s3 then some h else w.bk, done := w.done ++ [x] }
  | .deploy => if w.pod.isSome then some w else some { w with pod := some (startDb none w.bk) }
  | .podLost => if w.pod.isSome then some { w with pod := some (startDb none w.bk) } else none
  | .tear e => some (tear s3 e w).1

def hrun (s3 : Bool) : HW → List HEv → Option HW
  | w, [] => some w
  | w, e :: es => (hstep s3 w e).bind fun w' => hrun s3 w' es

end Verif.Cmd.K8sDeploy
