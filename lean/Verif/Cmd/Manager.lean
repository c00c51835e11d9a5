/-
`wr manager start|stop|drain|status`: what the sub-commands do with the
manager, with the process named in the pid file and with the token and address
files (cmd/manager.go, cmd/root.go), and which lines of the manager's log they
show.

The surroundings are a world of processes on this machine and of managers that
answer at some addresses.  A process either exits within the 120 seconds that
`stop` waits after SIGTERM or does not; a manager that is asked to shut down
either does or does not; both are attributes of the world, so the theorems
range over all of them.  Not modelled: the texts of the messages, time outs of
Connect, and errors removing files.
-/
namespace Verif.Cmd.Manager

/-! ## the log -/

/-- bufio.MaxScanTokenSize: a line of this many bytes, or more, ends the scan
(cmd/manager.go 245-246: `bufio.NewScanner(f)`, `for scanner.Scan()`; the limit
is that of the Go library, which the code does not raise). -/
def maxLine : Nat := 65536

/-- bufio.ScanLines drops one carriage return at the end of a line. -/
def dropCR (l : List Char) : List Char :=
  if l.getLast? = some '\r' then l.dropLast else l

/-- cmd/manager.go 245-247: the lines `scanner.Scan()` yields for the contents
of the log (bytes as characters); `acc` is the line read so far, reversed. -/
def scan : List Char → List Char → List (List Char)
  | [], [] => []
  | [], c :: acc => if maxLine ≤ (c :: acc).length then [] else [dropCR (c :: acc).reverse]
  | d :: cs, acc =>
    if d = '\n' then
      if maxLine ≤ acc.length then [] else dropCR acc.reverse :: scan cs []
    else scan cs (d :: acc)

/-- strings.Contains -/
def contains (pat : List Char) : List Char → Bool
  | [] => pat.isEmpty
  | c :: cs => pat.isPrefixOf (c :: cs) || contains pat cs

/-- cmd/manager.go 249: `strings.Contains(line, "lvl=crit") ||
strings.Contains(line, "lvl=eror")`. -/
def bad (l : List Char) : Bool :=
  contains "lvl=crit".toList l || contains "lvl=eror".toList l

/-- `\s` of Go regular expressions -/
def isWs (c : Char) : Bool :=
  c = ' ' || c = '\t' || c = '\n' || c = Char.ofNat 12 || c = '\r'

def startPre : List Char := "lvl=info msg=\"wr manager ".toList
def startPost : List Char := " started on".toList

/-- `\S+ started on` at the beginning of `l` -/
def versionThenStarted (l : List Char) : Bool :=
  !(l.takeWhile (fun c => !isWs c)).isEmpty && startPost.isPrefixOf (l.dropWhile (fun c => !isWs c))

/-- cmd/manager.go 72, 253: `managerStartedLogRegex.MatchString(line)`. -/
def started : List Char → Bool
  | [] => false
  | c :: cs =>
    (startPre.isPrefixOf (c :: cs) && versionThenStarted ((c :: cs).drop startPre.length)) || started cs

/-- cmd/manager.go 246-256: one turn of the loop of getBadLogLines. -/
def logStep (lines : List (List Char)) (line : List Char) : List (List Char) :=
  let lines := if bad line then lines ++ [line] else lines
  if started line then [] else lines

/-- cmd/manager.go 237-259: getBadLogLines; `none` is a log that can't be
opened. -/
def badLogLines : Option (List Char) → List (List Char)
  | none => []
  | some text => (scan text []).foldl logStep []

/-! ## the world -/

/-- A manager that answers.  `at_` are the addresses at which it is reached
from here (its own, or a forwarded port); `saddr` is ServerInfo.Addr. -/
structure Mgr where
  pid : Nat
  saddr : Nat
  at_ : List Nat
  token : Nat
  quits : Bool          -- stops answering, in time, after a shutdown request
  daemon : Bool         -- started without --foreground: owns the pid file
  running : Nat         -- ServerStats.Running
  draining : Bool
deriving DecidableEq, Repr

/-- `procs`: the processes on this machine that we may signal, with whether
they exit within 120 s of a SIGTERM. -/
structure World where
  procs : List (Nat × Bool)
  mgrs : List Mgr
  pidFile : Option Nat
  token : Option Nat
  addr : Option Nat     -- contents of the manager.addr file
deriving DecidableEq, Repr

/-- config.ManagerHost:ManagerPort and our own IP:ManagerPort -/
structure Cfg where
  conf : Nat
  me : Nat
deriving DecidableEq, Repr

/-- jobqueue/client.go 207-282: Connect succeeds if a manager answers a ping at
the address; a ping needs no valid token. -/
def dial (w : World) (a : Nat) : Option Mgr := w.mgrs.find? fun m => a ∈ m.at_

/-- cmd/root.go 306-341: connect with `expectedToBeDown`: first the address in
the manager.addr file, then the configured one. -/
def connect (c : Cfg) (w : World) : Option Mgr :=
  match w.addr.bind (dial w) with
  | some m => some m
  | none => dial w c.conf

/-- cmd/root.go 306-341: connect without `expectedToBeDown`: `none` is death. -/
def connectOrDie (c : Cfg) (w : World) : Option Mgr :=
  if w.token.isNone then none else connect c w

/-- a process of this machine ends; if it is a manager, it stops answering and,
if it was daemonized, removes its pid file (cmd/manager.go 217-223, Release). -/
def exit (c : Cfg) (w : World) (pid : Nat) : World :=
  { w with
    procs := w.procs.filter fun p => p.1 ≠ pid
    mgrs := w.mgrs.filter fun m => ¬ (m.saddr = c.me ∧ m.pid = pid)
    pidFile := if w.mgrs.any (fun m => m.saddr = c.me ∧ m.pid = pid ∧ m.daemon = true) then none else w.pidFile }

/-- cmd/root.go 249-292: stopdaemon: SIGTERM; whether the process is gone
within 120 s. -/
def stopdaemon (c : Cfg) (w : World) (pid : Nat) : World × Bool :=
  match w.procs.find? (fun p => p.1 = pid) with
  | none => (w, false)
  | some (_, false) => (w, false)
  | some (_, true) => (exit c w pid, true)

/-- cmd/manager.go 891-903: deleteToken. -/
def deleteToken (w : World) : World := { w with token := none, addr := none }

/-- jobqueue/client.go 359-380: ShutdownServer: refused without the right
token; then waits until pings fail. -/
def shutdownServer (w : World) (m : Mgr) : World × Bool :=
  if w.token ≠ some m.token then (w, false)
  else if m.quits then ({ w with mgrs := w.mgrs.filter fun x => x ≠ m }, true)
  else (w, false)

inductive StopOut
  | stopped            -- "wr manager running on port ... was gracefully shut down"
  | stoppedAt (a : Nat) -- "wr manager running at ... was gracefully shut down"
  | notRunning         -- "does not seem to be running"
  | pidWrong           -- "most likely the pid file is wrong"
  | gaveUp             -- "I've tried everything"
deriving DecidableEq, Repr

def StopOut.ok : StopOut → Bool
  | .stopped => true
  | .stoppedAt _ => true
  | _ => false

/-- what a run of `stop` did: the world after it, the pids it signalled, the
managers it asked to shut down and how it ended -/
structure StopRes where
  w : World
  signalled : List Nat
  asked : List Mgr
  out : StopOut
deriving DecidableEq, Repr

/-- cmd/manager.go 330-370: stopping the manager that was connected to. -/
def stopFound (c : Cfg) (w : World) (sig : List Nat) (m : Mgr) : StopRes :=
  if m.saddr = c.me then
    let r := stopdaemon c w m.pid
    if r.2 then ⟨deleteToken r.1, sig ++ [m.pid], [], .stoppedAt m.saddr⟩
    else ⟨r.1, sig ++ [m.pid], [], .gaveUp⟩
  else
    let r := shutdownServer w m
    if r.2 then
      if (connect c r.1).isSome then ⟨r.1, sig, [m], .gaveUp⟩
      else ⟨deleteToken r.1, sig, [m], .stoppedAt m.saddr⟩
    else ⟨r.1, sig, [m], .gaveUp⟩

/-- cmd/manager.go 294-371: `wr manager stop`. -/
def stop (c : Cfg) (w : World) : StopRes :=
  match w.pidFile with
  | some pid =>
    let r := stopdaemon c w pid
    if r.2 then
      match connect c r.1 with
      | some m => stopFound c r.1 [pid] m
      | none => ⟨deleteToken r.1, [pid], [], .stopped⟩
    else
      match connect c r.1 with
      | some m => stopFound c r.1 [pid] m
      | none => ⟨r.1, [pid], [], .pidWrong⟩
  | none =>
    match connect c w with
    | none => ⟨w, [], [], .notRunning⟩
    | some _ =>
      -- `stopped` is false, so it connects again, waiting longer
      match connect c w with
      | some m => stopFound c w [] m
      | none => ⟨w, [], [], .pidWrong⟩

inductive DrainOut
  | noConnection | refused
  | drained            -- "there were no jobs still running"
  | draining (n : Nat)
deriving DecidableEq, Repr

/-- the manager enters drain mode (jobqueue/server.go 1051-1085; when it stops
is C120) -/
def setDraining (w : World) (m : Mgr) : World :=
  { w with mgrs := w.mgrs.map fun x => if x = m then { x with draining := true } else x }

/-- cmd/manager.go 392-431: `wr manager drain`. -/
def drain (c : Cfg) (w : World) : World × DrainOut :=
  match connect c w with
  | none => (w, .noConnection)
  | some m =>
    if w.token ≠ some m.token then (w, .refused)
    else
      let w := setDraining w m
      if m.running = 0 then (deleteToken w, .drained) else (w, .draining m.running)

inductive StatusOut
  | report (m : Mgr)
  | died               -- connect could not read the token, or could not connect
  | nonResponsive      -- "is supposed to be running with pid %d, but is non-responsive"
  | stopped
deriving DecidableEq, Repr

/-- cmd/manager.go 514-537: `wr manager status`. -/
def status (c : Cfg) (w : World) : StatusOut :=
  match w.pidFile with
  | some _ =>
    match connectOrDie c w with
    | none => .died
    | some m => .report m
  | none =>
    match connect c w with
    | none => .stopped
    | some m => .report m

inductive StartOut
  | alreadyRunning (pid : Nat)
  | badOptions
  | failed
  | started
deriving DecidableEq, Repr

/-- cmd/manager.go 160-174: the options that are checked before starting: that
the scripts can be read, the mount JSON parsed, what Kubernetes needs, and the
length of --local_username. -/
structure Opts where
  script : Option Bool          -- --cloud_script given: can it be read
  destroyScript : Option Bool
  mountOk : Bool
  kube : Bool
  namespaceLen : Nat
  configMapLen : Nat
  userLen : Nat
deriving DecidableEq, Repr

/-- cmd/root.go 43: maxCloudResourceUsernameLength -/
def maxUser : Nat := 18

/-- cmd/manager.go 160-181: none of the checks dies. -/
def Opts.ok (o : Opts) : Bool :=
  o.script ≠ some false && o.destroyScript ≠ some false && o.mountOk &&
  !(o.kube && o.namespaceLen = 0) && !(o.kube && (o.configMapLen = 0 && o.script.isNone)) &&
  !(maxUser < o.userLen)

/-- the manager that comes up, if any: its process, where it answers and how it
will react to signals and requests -/
structure Child where
  pid : Nat
  exits : Bool
  at_ : List Nat
  quits : Bool
  fresh : Nat           -- the token it generates when there is no token file
deriving DecidableEq, Repr

/-- cmd/manager.go 147-226: `wr manager start` without --foreground.  The
child, if it comes up (`some`), uses the token in the token file or writes a
new one (jobqueue/server.go, Serve), and its address is written to the
manager.addr file (cmd/manager.go 650-672, by child and parent).  Whatever
happens to the child, the pid file names it while it runs.  `inTime`: it comes
up before the parent stops waiting.  A child that fails to come up is assumed
to leave no files behind. -/
def start (c : Cfg) (w : World) (o : Opts) (child : Option Child) (inTime : Bool) : World × StartOut :=
  match connect c w with
  | some m => (w, .alreadyRunning m.pid)
  | none =>
    if !o.ok then (w, .badOptions)
    else
      match child with
      | none => ({ w with pidFile := none }, .failed)
      | some k =>
        let t := w.token.getD k.fresh
        let m : Mgr := ⟨k.pid, c.me, k.at_, t, k.quits, true, 0, false⟩
        let w' := { w with
          procs := (k.pid, k.exits) :: w.procs, mgrs := m :: w.mgrs
          pidFile := some k.pid, token := some t, addr := some c.me }
        (w', if inTime && (connect c w').isSome then .started else .failed)

end Verif.Cmd.Manager
