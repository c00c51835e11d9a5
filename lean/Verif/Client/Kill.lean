/-
Killing the command of a job: its processes and its container.

The model is of jobqueue/client.go:1017-1071 `killCmd`, jobqueue/utils.go:277-303 `getChildProcesses`, and client.go:958-981 (the end of a
command whose start could not be told to the server); and of client.go:893-931, 1015, 1034-1042, 1128-1175, 1183-1208 and 1447, what is
done about a docker container.

Processes. The environment (the processes themselves) forks and exits at any time. A process that is an orphan becomes a child of
process 1. Numbers of processes are not used again. The children of a process are found at one moment (utils.go:287, `p.Children()`), but
those of different processes at different moments. Signal 15 ends a process or not, as the environment says; signal 9 does at once.
Errors are not modelled: a process that can't be looked up has no children (utils.go:281-285), and errors of signals are only reported.

Containers. What the docker library answers: the container with a name, if there is one that is new (client.go:1144); the container whose
number is in a file (1150); the containers that are new (1137), of which the first is taken. Containers that were there when the job
started are known only with "?" (920), so with a name any container of that name is new.
-/
namespace Verif.Client.Kill

/-! ## Processes -/

/-- a process; `mine` is for the properties only: it is one of those the command started, or one of theirs, and so on -/
structure Proc where
  pid : Nat
  parent : Nat
  alive : Bool
  mine : Bool
deriving DecidableEq

/-- how far a kill has got -/
inductive Phase where
  | idle
  /-- utils.go:278-303: processes whose children are still to be found -/
  | listing (todo : List Nat)
  /-- client.go:1049-1067: processes to which signal 15 has still to be sent, and those that get signal 9 after a while -/
  | ending (toTerm toKill : List Nat)
  /-- client.go:1069: `wg.Wait()` has returned -/
  | done
deriving DecidableEq

/-- the processes of the computer, the next number, the command's process, how far the kill has got, and what was found; `hit` is for
the properties only: processes that were sent a signal -/
structure S where
  procs : List Proc
  next : Nat
  main : Nat
  phase : Phase
  found : List Nat
  hit : List Nat
deriving DecidableEq

inductive Ev where
  /-- a process makes another -/
  | fork (p : Nat)
  | exit (p : Nat)
  /-- `killCmd` is called -/
  | start
  /-- utils.go:287: the children of the next process are found -/
  | query
  /-- client.go:1022 -/
  | killMain
  /-- client.go:1052; whether the process ends of it -/
  | term (dies : Bool)
  /-- client.go:1061-1063: half a second after, for the one at this place in the list (one goroutine each) -/
  | kill (i : Nat)
  | finish
deriving DecidableEq

/-- a process ends; its children become those of process 1 -/
def die (ps : List Proc) (p : Nat) : List Proc :=
  ps.map (fun x => { x with
    alive := if x.pid = p then false else x.alive
    parent := if x.parent = p then 1 else x.parent })

/-- utils.go:287: the children of a process -/
def kids (ps : List Proc) (p : Nat) : List Nat :=
  (ps.filter (fun x => x.parent = p ∧ x.alive = true)).map (·.pid)

/-- it exists -/
def living (ps : List Proc) (p : Nat) : Prop := ∃ x ∈ ps, x.pid = p ∧ x.alive = true

instance (ps : List Proc) (p : Nat) : Decidable (living ps p) := by unfold living; infer_instance

/-- one step -/
def step (s : S) : Ev → Option S
  | .fork p =>
    match s.procs.find? (fun x => x.pid = p) with
    | some x =>
      if x.alive = true then
        some { s with procs := s.procs ++ [{ pid := s.next, parent := p, alive := true, mine := x.mine }], next := s.next + 1 }
      else none
    | none => none
  | .exit p => if p ≠ 1 ∧ living s.procs p then some { s with procs := die s.procs p } else none
  | .start =>
    match s.phase with
    | .idle => some { s with phase := .listing [s.main], found := [] }
    | _ => none
  | .query =>
    match s.phase with
    | .listing (p :: t) => some { s with phase := .listing (kids s.procs p ++ t), found := s.found ++ kids s.procs p }
    | _ => none
  | .killMain =>
    match s.phase with
    | .listing [] => some { s with procs := die s.procs s.main, phase := .ending s.found [], hit := s.main :: s.hit }
    | _ => none
  | .term dies =>
    match s.phase with
    | .ending (p :: t) k =>
      some { s with procs := if dies = true then die s.procs p else s.procs, phase := .ending t (k ++ [p]), hit := p :: s.hit }
    | _ => none
  | .kill i =>
    match s.phase with
    | .ending t k =>
      match k[i]? with
      | some p => some { s with procs := die s.procs p, phase := .ending t (k.eraseIdx i), hit := p :: s.hit }
      | none => none
    | _ => none
  | .finish =>
    match s.phase with
    | .ending [] [] => some { s with phase := .done }
    | _ => none

def run (s : S) : List Ev → Option S
  | [] => some s
  | e :: es =>
    match step s e with
    | none => none
    | some s' => run s' es

/-- client.go:965: a command whose start could not be told to the server: signal 9 to its process, and no more -/
def killOnly (s : S) : S := { s with procs := die s.procs s.main, hit := s.main :: s.hit }

/-! ## Containers -/

/-- what `MonitorDocker` says (client.go:900, 918, 1135-1154) -/
inductive Mode where
  /-- "?" -/
  | first
  /-- a name, or if there is no such container, a file -/
  | named (n : Nat)
deriving DecidableEq

/-- a container; `own` is for the properties only: the command made it -/
structure Con where
  id : Nat
  name : Nat
  own : Bool
  running : Bool
deriving DecidableEq

/-- the containers of the computer (`next` is the number of the next); those that were there when the job started; the number in the file;
what the checker knows; the peak memory and the processor time so far; whether a kill was done, and of which containers (those two for
the properties only) -/
structure D where
  mode : Mode
  cons : List Con
  next : Nat
  old : List Nat
  file : Option Nat
  known : Option Nat
  peak : Nat
  cpu : Nat
  killed : Bool
  ended : List Nat
deriving DecidableEq

/-- client.go:893-931 and 985: the start. With "?" the containers that are there are remembered -/
def D.init (mode : Mode) (cons : List Con) (next : Nat) (file : Option Nat) : D :=
  { mode := mode, cons := cons, next := next, old := (match mode with
      | .first => cons.map (·.id)
      | .named _ => []), file := file, known := none, peak := 0, cpu := 0, killed := false, ended := [] }

inductive DEv where
  /-- somebody makes a container -/
  | create (name : Nat) (own : Bool)
  /-- a container ends -/
  | stop (id : Nat)
  /-- the number is written to the file -/
  | write (id : Nat)
  /-- a check: the memory of the process, if it could be found; whether docker answers; and the memory and the processor time of the
  container, if docker tells -/
  | tick (mem : Option Nat) (ok : Bool) (stats : Option (Nat × Nat))
  /-- `killCmd`; whether docker answers -/
  | kill (ok : Bool)
deriving DecidableEq

/-- client.go:1135-1154: which container it is -/
def look (d : D) : Option Nat :=
  match d.mode with
  | .first => (d.cons.find? (fun c => c.running = true ∧ c.id ∉ d.old)).map (·.id)
  | .named n =>
    match d.cons.find? (fun c => c.running = true ∧ c.name = n) with
    | some c => some c.id
    | none => d.file.bind (fun i => (d.cons.find? (fun c => c.running = true ∧ c.id = i)).map (·.id))

/-- client.go:1131: once known, it stays -/
def learn (d : D) (ok : Bool) : Option Nat :=
  match d.known with
  | some i => some i
  | none => if ok = true then look d else none

/-- client.go:1169-1171: the larger of the two -/
def memOf (known : Option Nat) (mem : Nat) (stats : Option (Nat × Nat)) : Nat :=
  match known, stats with
  | some _, some (m, _) => if m > mem then m else mem
  | _, _ => mem

/-- client.go:1172 -/
def cpuOf (known : Option Nat) (stats : Option (Nat × Nat)) : Nat :=
  match known, stats with
  | some _, some (_, c) => c
  | _, _ => 0

def stopCon (cs : List Con) (i : Nat) : List Con := cs.map (fun c => { c with running := if c.id = i then false else c.running })

def dstep (d : D) : DEv → Option D
  | .create name own => some { d with cons := d.cons ++ [{ id := d.next, name := name, own := own, running := true }], next := d.next + 1 }
  | .stop i => some { d with cons := stopCon d.cons i }
  | .write i => some { d with file := some i }
  | .tick mem ok stats =>
    if d.killed = true then none else
    some { d with
      known := learn d ok
      peak := match mem with
        | some m => max d.peak (memOf (learn d ok) m stats)
        | none => d.peak
      cpu := max d.cpu (cpuOf (learn d ok) stats) }
  | .kill ok =>
    if d.killed = true then none else
    match d.known with
    | some i => some { d with killed := true, cons := if ok = true then stopCon d.cons i else d.cons, ended := i :: d.ended }
    | none => some { d with killed := true }

def drun (d : D) : List DEv → Option D
  | [] => some d
  | e :: es =>
    match dstep d e with
    | none => none
    | some d' => drun d' es

end Verif.Client.Kill
