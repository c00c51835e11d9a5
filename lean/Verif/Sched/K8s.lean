/-!
# Kubernetes: what is asked for, copied and waited for

The model is of jobqueue/scheduler/kubernetes.go, kubernetes/scheduler/controller.go, parts of kubernetes/client/kubernetes.go and
`rewriteConfigFiles` of cmd/kubernetes.go. Simplified: amounts are natural numbers of any size (int64 in the code), cores are counted
in thousandths (a float64 in the code). File names are lists of components: clean paths, so that `filepath.Rel`, `Dir` and `Base` take
them apart and put them together without change. Kubernetes itself, the informers and the connection to pods are not modelled.
-/
namespace Verif.Sched.K8s

/-! ## Resources -/

/-- `Requirements`: MB, thousandths of a core, GB -/
structure Req where
  ram : Nat
  cores : Nat
  disk : Nat
  deriving DecidableEq

/-- What Kubernetes is asked for: thousandths of a core, bytes, bytes -/
structure Amount where
  cpu : Nat
  mem : Nat
  disk : Nat
  deriving DecidableEq

/-- kubernetes.go:654-671 `generateResourceRequests`; `int64(req.Cores)` drops what is after the point -/
def requests (debug : Bool) (r : Req) : Amount :=
  { cpu := r.cores / 1000 * (if debug then 100 else 1000)
    mem := r.ram * 1024 * 1024
    disk := r.disk * 1024 * 1024 * (if debug then 1 else 1024) }

/-- kubernetes.go:674-695 `generateResourceRequirements`: the limits for CPU and memory -/
def limits (debug : Bool) (r : Req) : Nat × Nat :=
  ((r.cores + 1000) / 1000 * (if debug then 100 else 1000), (r.ram + r.ram / 5) * 1024 * 1024)

/-- kubernetes.go:444-453: what the pod is started with; `es` if the cluster knows the size of disks -/
def podRequests (debug es : Bool) (r : Req) : Amount := { requests debug r with disk := if es then (requests debug r).disk else 0 }

/-! ## Can it ever run? -/

/-- `node.Status.Allocatable`; `disk` is `none` if the node does not say -/
structure Node where
  cpu : Nat
  mem : Nat
  disk : Option Nat
  deriving DecidableEq

/-- controller.go:531-588 `reqCheckHandler`, if there are nodes: if the request is possible, and `Ephemeral` -/
def reqCheck (nodes : List Node) (a : Amount) : Bool × Bool :=
  if nodes.any (fun n => n.disk.isSome) then
    (nodes.any (fun n => decide (a.cpu ≤ n.cpu) && decide (a.disk ≤ n.disk.getD 0) && decide (a.mem ≤ n.mem)), true)
  else (nodes.any (fun n => decide (a.cpu ≤ n.cpu) && decide (a.mem ≤ n.mem)), false)

/-! ## The two goroutines that check -/

/-- controller.go:273-278: two goroutines run `reqCheckHandler`. Each is waiting for a request (`none`) or sends one that it could not
    answer back to the channel it came from (controller.go:524-529). The channel has no room: a send ends only when the other goroutine
    receives. -/
structure Checks where
  a : Option Nat
  b : Option Nat
  /-- requests whose senders wait (kubernetes.go:313-315) -/
  pending : List Nat
  answered : List Nat
  /-- if nodes are known -/
  nodes : Bool
  deriving DecidableEq

inductive CEv where
  /-- a call of `reqCheck` -/
  | ask (n : Nat)
  /-- a node becomes known -/
  | node
  /-- goroutine `a` (or `b`) receives from the first of those who wait to send -/
  | recvA
  | recvB
  /-- goroutine `a` (or `b`) receives from the other one -/
  | swapA
  | swapB
  deriving DecidableEq

/-- controller.go:519-530, 546-588: what a goroutine does with what it received: it answers, or is to send it back -/
def handle (s : Checks) (n : Nat) : Option Nat × List Nat := if s.nodes then (none, s.answered ++ [n]) else (some n, s.answered)

def cstep (s : Checks) : CEv → Option Checks
  | .ask n => some { s with pending := s.pending ++ [n] }
  | .node => some { s with nodes := true }
  | .recvA =>
    match s.a, s.pending with
    | none, n :: ns => some { s with a := (handle s n).1, answered := (handle s n).2, pending := ns }
    | _, _ => none
  | .recvB =>
    match s.b, s.pending with
    | none, n :: ns => some { s with b := (handle s n).1, answered := (handle s n).2, pending := ns }
    | _, _ => none
  | .swapA =>
    match s.a, s.b with
    | none, some n => some { s with a := (handle s n).1, answered := (handle s n).2, b := none }
    | _, _ => none
  | .swapB =>
    match s.b, s.a with
    | none, some n => some { s with b := (handle s n).1, answered := (handle s n).2, a := none }
    | _, _ => none

def crun : Checks → List CEv → Option Checks
  | s, [] => some s
  | s, e :: es => (cstep s e).bind fun s' => crun s' es

def Checks.init : Checks := { a := none, b := none, pending := [], answered := [], nodes := false }

/-! ## Start-up scripts -/

/-- kubernetes.go:64-68: `configMapName` is one variable for all calls of `runCmd`; `none` is "". A script is known by its text
    (client/kubernetes.go:627-660 gives the same name to the same text). -/
abbrev Script := Nat

/-- A call of `runCmd` (kubernetes.go:410-475): it sets the variable, and later reads it. -/
inductive SEv where
  /-- 418-430: the `n`-th call, for a job with its own script or without -/
  | begin (n : Nat) (own : Option Script)
  /-- 456-462: it starts its pod -/
  | spawn (n : Nat)
  deriving DecidableEq

structure Scripts where
  /-- `configMapName` -/
  name : Option Script
  /-- calls between the two -/
  calls : List Nat
  /-- the pods started, with their scripts -/
  pods : List (Nat × Option Script)
  deriving DecidableEq

/-- `config` is `s.config.ConfigMap` -/
def sstep (config : Option Script) (s : Scripts) : SEv → Option Scripts
  | .begin n own =>
    if n ∈ s.calls ∨ n ∈ s.pods.map (·.1) then none
    else
      some { s with
        calls := n :: s.calls
        name := match own with
          | some x => some x
          | none => match config with
            | some c => some c
            | none => s.name }
  | .spawn n => if n ∈ s.calls then some { s with calls := s.calls.filter (· ≠ n), pods := s.pods ++ [(n, s.name)] } else none

def srun (config : Option Script) : Scripts → List SEv → Option Scripts
  | s, [] => some s
  | s, e :: es => (sstep config s e).bind fun s' => srun config s' es

/-- kubernetes.go:208-223: with no config map, that of `PostCreationScript` is there at the start -/
def Scripts.init (dflt : Option Script) : Scripts := { name := dflt, calls := [], pods := [] }

/-- kubernetes.go:433-439: the image -/
def image (own : Option String) (config : String) : String := own.getD config

/-- kubernetes.go:443: single quotes are taken out of the command -/
def podCmd (cmd : List Char) : List Char := cmd.filter (· ≠ '\'')

/-! ## Config files -/

/-- A path: below the home directory (`~/…`) or not. -/
structure Path where
  home : Bool
  parts : List String
  deriving DecidableEq

/-- where tar puts a file, or where it is read -/
abbrev File := List String

/-- cmd/kubernetes.go:781-837 `rewriteConfigFiles`, when the manager is deployed: pairs of what is read and where it is put; `none` is
    the panic for an index out of range. `exist` says which files there are, `hdir` is the home directory, `mount` is `podBinDir`. -/
def deployFiles (exist : Path → Bool) (hdir mount : File) (files : List Path) : Option (List (File × File)) :=
  let paths := files.filter exist
  let dests := (paths.filter (·.home)).map fun p => mount ++ p.parts
  (paths.zipIdx.filter (fun x => x.1.home)).mapM fun x => (dests[x.2]?).map fun d => (hdir ++ x.1.parts, d)

/-- kubernetes.go:619-639 `rewriteDests` -/
def rewriteDests (mount : File) (ps : List Path) : List File := ps.map fun p => if p.home then mount ++ p.parts else p.parts

/-- An entry: a path or `src:dest`. -/
inductive Entry where
  | one (p : Path)
  | pair (src dst : Path)
  deriving DecidableEq

/-- kubernetes.go:515-616 `rewriteConfigFiles`, in the manager's pod. `exist` says which files there are (`~/` is not the home directory
    where sources of pairs are looked for: line 559). -/
def podFiles (exist : Path → Bool) (rawExist : Path → Bool) (hdir mount : File) (es : List Entry) : List (File × File) :=
  let paths := es.filterMap fun
    | .one p => if exist p then some p else none
    | .pair _ _ => none
  let pairs := es.filterMap fun
    | .one _ => none
    | .pair a b => if a.parts.getLast? = some "client.token" || rawExist a then some (a, b) else none
  let src := fun p : Path => if p.home then hdir ++ p.parts else p.parts
  (paths.map src).zip (rewriteDests mount paths) ++ (pairs.map fun x => src x.1).zip (rewriteDests mount (pairs.map (·.2)))

/-! ## Waiting for a pod -/

inductive Phase where
  | pending
  | running
  | succeeded
  | failed
  | gone
  deriving DecidableEq

/-- controller.go:396-408, 419-430: a goroutine that is to tell `runCmd` how the pod ended (`ok`) -/
inductive Teller where
  /-- before `!req.Done` -/
  | new (ok : Bool)
  /-- before `req.Done = true` -/
  | seen (ok : Bool)
  /-- sending -/
  | send (ok : Bool)
  /-- before `close` -/
  | close
  deriving DecidableEq

/-- One pod, from when it was started; pods do not share anything but the work queue, in which each has its own key. -/
structure Pod where
  phase : Phase
  /-- if its key is in the work queue (or waits to be) -/
  queued : Bool
  /-- `NumRequeues` -/
  retries : Nat
  /-- if `podAliveMap` has it -/
  known : Bool
  done : Bool
  closed : Bool
  tellers : List Teller
  /-- what `runCmd` received; `none` while it waits -/
  got : Option Bool
  panicked : Bool
  deriving DecidableEq

def Pod.init : Pod :=
  { phase := .pending, queued := true, retries := 0, known := false, done := false, closed := false, tellers := [], got := none,
    panicked := false }

inductive PEv where
  /-- Kubernetes: the phase changes or, with the same phase, something else about the pod -/
  | change (p : Phase)
  /-- the pod is deleted, by somebody else or with its node -/
  | delete
  /-- `podAliveHandler` stores the request -/
  | register
  /-- a worker takes the key -/
  | process
  /-- the `i`-th goroutine does a step -/
  | tell (i : Nat)
  /-- `runCmd` deletes the pod, kubernetes.go:503 -/
  | destroy
  deriving DecidableEq

/-- What Kubernetes does with phases: an ended pod stays ended. -/
def okChange : Phase → Phase → Bool
  | .pending, .running => true
  | .pending, .failed => true
  | .pending, .succeeded => true
  | .running, .succeeded => true
  | .running, .failed => true
  | p, q => decide (p = q) && decide (p ≠ .gone)

/-- controller.go:58-62 `maxRetries` -/
def maxRetries : Nat := 15

/-- controller.go:473-490 `handleErr` with an error -/
def retry (s : Pod) : Pod :=
  if s.retries < maxRetries then { s with queued := true, retries := s.retries + 1 } else { s with queued := false, retries := 0 }

/-- controller.go:298-368 and 373-459: `processNextWorkItem`, `processItem`, `processPod` (without copying files) and `handleErr` -/
def process (s : Pod) : Pod :=
  match s.phase with
  | .succeeded => if s.known then { s with queued := false, retries := 0, tellers := s.tellers ++ [.new true] } else retry s
  | .failed => if s.known then { s with queued := false, retries := 0, tellers := s.tellers ++ [.new false] } else retry s
  | _ => { s with queued := false, retries := 0 }

/-- controller.go:396-403, 419-426: one step of a goroutine; `none` if it has to wait -/
def tell (s : Pod) (i : Nat) : Option Pod :=
  match s.tellers[i]? with
  | none => none
  | some (.new ok) => some (if s.done then { s with tellers := s.tellers.eraseIdx i } else { s with tellers := s.tellers.set i (.seen ok) })
  | some (.seen ok) => some { s with done := true, tellers := s.tellers.set i (.send ok) }
  | some (.send ok) =>
    if s.closed then some { s with panicked := true }
    else if s.got = none then some { s with got := some ok, tellers := s.tellers.set i .close }
    else none
  | some .close => if s.closed then some { s with panicked := true } else some { s with closed := true, tellers := s.tellers.eraseIdx i }

def pstep (s : Pod) : PEv → Option Pod
  | .change p => if s.panicked = false ∧ okChange s.phase p then some { s with phase := p, queued := true } else none
  | .delete => if s.panicked = false then some { s with phase := .gone } else none
  | .register => if s.panicked = false ∧ s.known = false then some { s with known := true } else none
  | .process => if s.panicked = false ∧ s.queued then some (process s) else none
  | .tell i => if s.panicked = false then tell s i else none
  | .destroy => if s.panicked = false ∧ s.got.isSome then some { s with phase := .gone } else none

def prun : Pod → List PEv → Option Pod
  | s, [] => some s
  | s, e :: es => (pstep s e).bind fun s' => prun s' es

/-! ## Starting -/

inductive Started where
  | error
  | panic
  | running
  deriving DecidableEq

/-- kubernetes.go:167-290 `initialize` and then controller.go:247-282 `Run`, which is called in a goroutine. `auth`: the cluster lets us
    in. `s.libclient` is nil when the script's config map is made with it (line 210, 236); `opts.Logger` is never set (lines 259-266) and
    is the first thing that `Run` uses. -/
def start (configMap script : Bool) (auth : Bool) : Started :=
  if !configMap && script then .panic
  else if !auth then .error
  else .panic

end Verif.Sched.K8s
