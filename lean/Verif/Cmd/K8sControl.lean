/-!
# The controller that `wr k8s deploy` leaves running

kubernetes/deployment/controller.go: the process that watches the pods of the manager's deployment, copies the files into a
pod that waits for them, records the name of the manager's pod, and forwards the manager's ports to it; kubernetes/client/pod.go:
how the files are copied (`makeTar`, `CopyTar`) and the ports forwarded (`PortForward`); cmd/kubernetes.go 511-538: how it is started.

One event is one step of one of the threads: the watch of the cluster, the delivery of its notes to the handlers, the worker, and the
port forwarders. What the cluster, the network and the disk do is in the events, so every history of them is considered.

The work queue, the informer and the port forwarder are client-go's, and are modelled by what their documentation says: a key
that is added while it is waiting is not added again; one that is added while it is being worked on waits again once that is done; an
informer stores an object before it tells the handlers about it, and tells them of every change in order; a port forwarder fails if it cannot
listen, and otherwise closes the ready channel it was given and goes on until the connection is lost. The rate at which retries are made is left
out: a retry comes at any time.
-/
namespace Verif.Cmd.K8sControl

/-! ## Copying files -/

abbrev Str := List Char

/-- kubernetes/client/pod.go 69-72 `FilePair` -/
structure Pair where
  src : Str
  dest : Str
  deriving DecidableEq, Repr

/-- What is in a file on the disk, with its mode. Times are left out. -/
structure Content where
  mode : Nat
  bytes : List Nat
  deriving DecidableEq, Repr

/-- `path.Base` of a cleaned path: what follows the last slash (the path is not empty and not `/`, since it is the path of a file that
    could be read) -/
def base (p : Str) : Str := (p.reverse.takeWhile (· ≠ '/')).reverse

/-- `strings.HasSuffix(dest, "/")` -/
def endsInSlash (d : Str) : Bool := d.getLast? = some '/'

/-- kubernetes/client/pod.go 100-106: the name of an entry -/
def entryName (p : Pair) : Str := if endsInSlash p.dest then p.dest ++ base p.src else p.dest

/-- An entry of a tarball: its name and what was in the file. -/
abbrev Entry := Str × Content

/-- kubernetes/client/pod.go 89-137 `addFile` and `makeTar`: the entries that are written, and whether there was an error. The files
    after the one that could not be read are not written. `disk`: what can be read. The cleaning of the source's path is left out (it names the same
    file); a file does not change while it is read. -/
def makeTar (disk : Str → Option Content) : List Pair → List Entry × Bool
  | [] => ([], false)
  | p :: ps =>
    match disk p.src with
    | none => ([], true)
    | some c => let r := makeTar disk ps
                ((entryName p, c) :: r.1, r.2)

/-- What unpacking does (tar in the init container): a later entry of the same name replaces an earlier one. -/
def unpack (fs : Str → Option Content) : List Entry → Str → Option Content
  | [] => fs
  | e :: es => unpack (fun n => if n = e.1 then some e.2 else fs n) es

/-- What came of attaching to the init container: it failed, or ended, when that many entries had been read and not all; or all was read,
    and then it ended well or not. -/
inductive Attach | early (entries : Nat) (failed : Bool) | all (failed : Bool)
  deriving DecidableEq, Repr

/-- How a call of `CopyTar` ends: it never returns, or it returns an error or not. -/
inductive Copied | hangs | returns (err : Bool)
  deriving DecidableEq, Repr

/-- kubernetes/client/pod.go 298-350 `CopyTar`: how it ends. The tarball is written to a pipe, on which a write waits until it has been
    read, and the reader's end is never closed; so if attaching ends before all has been read the goroutine that writes never gets to
    `close(done)` (319), and the wait for that (344) never ends. Otherwise the error that `makeTar` returned (315) has been written to `err`
    before the one that attaching returns is (339), and is lost. -/
def copyEnds : Attach → Copied
  | .early _ _ => .hangs
  | .all failed => .returns failed

/-- kubernetes/client/pod.go 298-350 `CopyTar`: how it ends, and the pod's files afterwards -/
def copyTar (disk : Str → Option Content) (files : List Pair) (a : Attach) (fs : Str → Option Content) :
    Copied × (Str → Option Content) :=
  match a with
  | .early n _ => (copyEnds a, unpack fs ((makeTar disk files).1.take n))
  | .all _ => (copyEnds a, unpack fs (makeTar disk files).1)

/-! ## The controller -/

/-- The state of a container -/
inductive CS | waiting | running | terminated
  deriving DecidableEq, Repr

/-- What is known of a pod: the states of its first init container and its first container (`none`: there are no statuses), and whether its phase
    is "Running" -/
structure Obs where
  init : Option CS
  main : Option CS
  phase : Bool
  deriving DecidableEq, Repr

/-- A pod's name; all of them are in the one namespace, so it stands for the key too. -/
abbrev Pod := Nat

/-- What `processPod` (controller.go 222-290) does with what it sees. -/
inductive Todo
  /-- nothing (223, 226, 284-286, or no case applies) -/
  | nothing
  /-- copy the files (228-233) -/
  | copy
  /-- record the pod and forward the ports (234-282) -/
  | forward
  /-- there are no statuses to look at (234): the process dies -/
  | panic
  deriving DecidableEq, Repr

/-- controller.go 222-290: which case applies -/
def todo (o : Obs) : Todo :=
  match o.init with
  | none => .nothing
  | some .waiting => .nothing
  | some .running => .copy
  | some .terminated =>
    match o.main with
    | none => .panic
    | some .running => .forward
    | some _ => .nothing

/-- What happens to the resource file (controller.go 237-265): it cannot be opened; it cannot be opened for writing; the writing ends early;
    or all is well. -/
inductive FileOp | unreadable | unwritable | torn | ok
  deriving DecidableEq, Repr

/-- What the resource file holds: something that cannot be decoded, or the name of the manager's pod, if there is one. The rest of it is
    not changed here. -/
inductive Res | junk | pod (p : Option Pod)
  deriving DecidableEq, Repr

/-- controller.go 237-265: the file afterwards, and whether the ports are then forwarded (`return` at 240 and 247; the other errors are logged
    only). The file is not truncated (254), and what is left of a longer one is not looked at by those that decode it. -/
def record (p : Pod) : FileOp → Res → Res × Bool
  | .unreadable, r => (r, false)
  | _, .junk => (.junk, false)
  | .unwritable, r => (r, true)
  | .torn, _ => (.junk, true)
  | .ok, _ => (.pod (some p), true)

/-- What the worker is doing: waiting for a key; having got one; copying the files to a pod; waiting for a goroutine
    that will not end. -/
inductive Work | idle | got (p : Pod) | copying (p : Pod) | hung (p : Pod)
  deriving DecidableEq, Repr

/-- What has happened, for the properties: the worker looked at a pod in a state and what it did; a look failed; a key was given up;
    a copy returned. -/
inductive Act
  | saw (p : Pod) (o : Option Obs)
  | failed (p : Pod)
  | gaveUp (p : Pod)
  | copied (p : Pod) (err : Bool)
  deriving DecidableEq, Repr

structure St where
  /-- the informer's store -/
  store : Pod → Option Obs
  /-- notes that have not been delivered to the handlers, the oldest first -/
  notes : List Pod
  /-- the work queue: the keys that wait, those that are to be worked on, the number of retries -/
  queue : List Pod
  dirty : List Pod
  tries : Pod → Nat
  /-- keys that wait to be added again after an error -/
  later : List Pod
  work : Work
  file : Res
  /-- port forwarders that have been started and have not listened -/
  starting : List (Pod × Obs)
  /-- the one that listens -/
  active : Option Pod
  /-- the ready channel has been closed -/
  ready : Bool
  /-- the number of ports to be forwarded -/
  ports : Nat
  /-- the process has died of a panic -/
  dead : Bool
  /-- newest first -/
  log : List Act

/-- cmd/kubernetes.go 511-538 and controller.go 125-131: `Run` asks the logger in the options for another, which panics if there is none.
    Also kubernetes/client/kubernetes.go 291-293: the ready channel is made. -/
def start (logger : Bool) (ports : Nat) (file : Res) : St :=
  { store := fun _ => none, notes := [], queue := [], dirty := [], tries := fun _ => 0, later := [], work := .idle, file := file,
    starting := [], active := none, ready := false, ports := ports, dead := !logger, log := [] }

/-- The number of ports and whether there is a logger, as cmd/kubernetes.go 511-521 gives them. -/
def cmdPorts : Nat := 2

/-- see `cmdPorts`: `Logger` is not among the fields that are set -/
def cmdLogger : Bool := false

inductive Ev
  /-- the watch tells of a pod that is new or has changed (controller.go 76-97) -/
  | see (p : Pod) (o : Obs)
  /-- the watch tells that a pod is gone -/
  | gone (p : Pod)
  /-- a handler is told (controller.go 99-119) -/
  | deliver
  /-- the worker gets a key (controller.go 158-170) -/
  | take
  /-- the worker looks at the pod and does what is to be done (controller.go 200-290) -/
  | look (ops : FileOp)
  /-- the store, or the object in it, is not as it should be (controller.go 203-206, 217) -/
  | lookFails
  /-- a key is added again (controller.go 180) -/
  | retry
  /-- attaching to the init container ends (pod.go 339) -/
  | attachEnds (a : Attach)
  /-- a port forwarder goes on: its connection is made, or not (pod.go 255-294) -/
  | listen (p : Pod) (o : Obs) (dials : Bool)
  /-- the connection of the one that listens is lost -/
  | lost
  deriving DecidableEq, Repr

/-- The key that is being worked on -/
def busy : Work → Option Pod
  | .idle => none
  | .got p => some p
  | .copying p => some p
  | .hung p => some p

/-- The work queue's `Add` (client-go's documentation) -/
def add (s : St) (p : Pod) : St :=
  if p ∈ s.dirty then s
  else if busy s.work = some p then { s with dirty := p :: s.dirty }
  else { s with dirty := p :: s.dirty, queue := s.queue ++ [p] }

/-- The work queue's `Done` (controller.go 170): it waits again if it has been added meanwhile -/
def done (s : St) (p : Pod) : St :=
  if p ∈ s.dirty then { s with work := .idle, queue := s.queue ++ [p] } else { s with work := .idle }

/-- The work queue's `Forget` (controller.go 186, 192) -/
def forget (s : St) (p : Pod) : St := { s with tries := fun q => if q = p then 0 else s.tries q }

/-- controller.go 30 -/
def maxRetries : Nat := 5

/-- controller.go 200-290: the worker has got `p` and looks at it -/
def look (s : St) (p : Pod) (op : FileOp) : St :=
  let s := { s with log := .saw p (s.store p) :: s.log }
  match s.store p with
  | none => done (forget s p) p
  | some o =>
    match todo o with
    | .nothing => done (forget s p) p
    | .copy => { s with work := .copying p }
    | .panic => { s with dead := true }
    | .forward =>
      let r := record p op s.file
      if r.2 then done (forget { s with file := r.1, starting := s.starting ++ [(p, o)] } p) p
      else done (forget { s with file := r.1 } p) p

/-- controller.go 173-189: what is done about an error -/
def lookFails (s : St) (p : Pod) : St :=
  let s := { s with log := .failed p :: s.log }
  if s.tries p < maxRetries then
    done { s with later := s.later ++ [p], tries := fun q => if q = p then s.tries p + 1 else s.tries q } p
  else done (forget { s with log := .gaveUp p :: s.log } p) p

/-- kubernetes/client/pod.go 255-294 `PortForward` and `forwardPorts`. It needs exactly two ports: there is room for two (269), and a
    string that is not a port, as is left if there are fewer, is refused. -/
def listen (s : St) (p : Pod) (o : Obs) (dials : Bool) : St :=
  let s := { s with starting := s.starting.erase (p, o) }
  if !o.phase then s
  else if 2 < s.ports then { s with dead := true }
  else if s.ports < 2 then s
  else if !dials then s
  else if s.active.isSome then s
  else if s.ready then { s with dead := true }
  else { s with active := some p, ready := true }

/-- A step of a process that lives. -/
def step1 (s : St) : Ev → St
  | .see p o => { s with store := fun q => if q = p then some o else s.store q, notes := s.notes ++ [p] }
  | .gone p => { s with store := fun q => if q = p then none else s.store q, notes := s.notes ++ [p] }
  | .deliver => match s.notes with
    | [] => s
    | p :: ns => add { s with notes := ns } p
  | .take => match s.work, s.queue with
    | .idle, p :: q => { s with queue := q, dirty := s.dirty.filter (· ≠ p), work := .got p }
    | _, _ => s
  | .look op => match s.work with
    | .got p => look s p op
    | _ => s
  | .lookFails => match s.work with
    | .got p => lookFails s p
    | _ => s
  | .retry => match s.later with
    | [] => s
    | p :: l => add { s with later := l } p
  | .attachEnds a => match s.work with
    | .copying p => match copyEnds a with
      | .hangs => { s with work := .hung p }
      | .returns e => done (forget { s with log := .copied p e :: s.log } p) p
    | _ => s
  | .listen p o dials => if (p, o) ∈ s.starting then listen s p o dials else s
  | .lost => { s with active := none }

/-- A process that has died does nothing. -/
def step (s : St) (e : Ev) : St := if s.dead then s else step1 s e

def run (s : St) (es : List Ev) : St := es.foldl step s

end Verif.Cmd.K8sControl
