import Verif.Client.Execute
/-!
# Watching a command that runs (jobqueue/client.go:636-690, 980-1235)

`Execute` (the main goroutine) starts the command and waits for it. A goroutine that touches the job runs from before the
mounts on (client.go:647-690); it learns of kill requests. Another goroutine, the checker (1014-1213), is started when the
command was; every second it measures what the command uses, it takes signals, and it installs what a kill request does.

Each event is one step of one goroutine, or of the command, up to its next lock, channel operation or sleep.

Simplifications: `killCmd` (1017-1070) sends SIGKILL to the command at once and reports no error; processes the command left
behind that hold its output open are one flag, `held`, and end when the environment says so. Docker is not modelled. A check of
the resources (1111-1208) is one step, as it has the mutex for its updates and nothing else writes them. The kill function
before the checker has installed another (643-645) is one step with what follows it, as its two sends cannot block.
-/
namespace Verif.Client.Monitor

/-- where the main goroutine is -/
inductive Main where
  /-- before `cmd.Start()` has returned: making directories, mounting (client.go:692-945) -/
  | setup
  /-- client.go:1215-1218: waits for the output and the command -/
  | waiting
  /-- client.go:1220: about to send on `stopChecking` -/
  | stopping
  /-- client.go:1221: waits for the checker -/
  | joining
  /-- client.go:1222: about to take `stateMutex` -/
  | locking
  /-- client.go:1226-1228: has the mutex, for the rest of `Execute` -/
  | locked
  /-- goes on with the decision of client.go:1230 ff., which is in Execute.lean -/
  | done
  deriving DecidableEq, Repr

/-- where the goroutine that touches is -/
inductive Toucher where
  /-- client.go:649: between touches -/
  | alive
  /-- client.go:1083: a kill was asked for; about to take `stateMutex` -/
  | wantLock
  /-- client.go:1086: has set `killCalled` -/
  | killing
  /-- client.go:660: has killed, about to send on `stopChecking` -/
  | sending
  | gone
  deriving DecidableEq, Repr

inductive Checker where
  | no | starting | checking
  /-- client.go:1212: about to send on `finishedChecking` -/
  | finished
  | gone
  deriving DecidableEq, Repr

structure Cfg where
  /-- `job.Requirements.RAM` -/
  ram : Nat
  /-- `ClientPercentMemoryKill` (client.go:98) -/
  percent : Nat := 90

structure S where
  main : Main := .setup
  toucher : Toucher := .alive
  checker : Checker := .no
  /-- `whenKilledByServer` is that of client.go:1082-1088 -/
  installed : Bool := false
  /-- what `cmd.Wait()` returns, once the command has exited -/
  exited : Option Wait := none
  /-- some other process holds the output of the command open -/
  held : Bool := false
  /-- `closeReaders` was called -/
  closed : Bool := false
  /-- SIGKILL was sent to the command -/
  killed : Bool := false
  /-- values in the channels `stopChecking` (room for 2) and `killDoneCh` (room for 1) -/
  stop : Nat := 0
  killDone : Nat := 0
  killCalled : Bool := false
  signalled : Bool := false
  ranoutTime : Bool := false
  ranoutMem : Bool := false
  ranoutDisk : Bool := false
  machineRAM : Nat := 0
  peakmem : Nat := 0
  peakdisk : Nat := 0
  deriving DecidableEq

inductive Ev where
  /-- `cmd.Start()` and `c.Started()` worked, and the checker was started (client.go:941-1014) -/
  | start
  /-- the checker installs the kill function (client.go:1081-1089) -/
  | install
  /-- a touch answers that the job is to be killed (client.go:651-657) -/
  | touchKill
  /-- the kill function gets the mutex and sets `killCalled` (client.go:1083-1085) -/
  | killLock
  /-- it kills the command, and sends on `killDoneCh` (client.go:1086-1087) -/
  | killCmd
  /-- client.go:660 -/
  | killSend
  /-- a signal comes; `over`: the time of the job is over (client.go:1097-1110) -/
  | signal (over : Bool)
  /-- a check of resources: no space is left (client.go:1114-1122) -/
  | noSpace
  /-- a check of resources: memory and disk used, unless there was an error, and the memory of the machine if it can be had
  (client.go:1125-1208) -/
  | usage (mem disk : Option Nat) (machine : Nat)
  /-- the checker receives from `stopChecking` (client.go:1209-1211) -/
  | checkStop
  /-- the command exits; `held`: other processes hold its output -/
  | exit (w : Wait) (held : Bool)
  /-- these end -/
  | release
  /-- client.go:1216-1219: the output was read and the command waited for -/
  | waited
  /-- client.go:1220 -/
  | sendStop
  /-- client.go:1221 with 1212 -/
  | join
  /-- client.go:1222 -/
  | lock
  /-- client.go:1226-1228 -/
  | finish
  deriving DecidableEq, Repr

/-- client.go:1178-1208: the peaks; with memory over what is expected and over most of that of the machine, the command is
killed, and the checker ends (without closing the readers) -/
def usage (c : Cfg) (mem disk : Option Nat) (machine : Nat) (s : S) : S :=
  match mem with
  | some m =>
    if s.peakmem < m then
      let s := { s with peakmem := m }
      if c.ram < m then
        let s := { s with ranoutMem := true, machineRAM := if s.machineRAM = 0 then machine else s.machineRAM }
        if 0 < s.machineRAM ∧ s.machineRAM / 100 * c.percent ≤ m then { s with killed := true, checker := .finished }
        else { s with peakdisk := max s.peakdisk (disk.getD 0) }
      else { s with peakdisk := max s.peakdisk (disk.getD 0) }
    else { s with peakdisk := max s.peakdisk (disk.getD 0) }
  | none => { s with peakdisk := max s.peakdisk (disk.getD 0) }

def step (c : Cfg) (s : S) : Ev → Option S
  | .start => if s.main = .setup then some { s with main := .waiting, checker := .starting } else none
  | .install => if s.checker = .starting then some { s with checker := .checking, installed := true } else none
  | .touchKill =>
    if s.toucher = .alive then
      if s.installed then some { s with toucher := .wantLock }
      else some { s with toucher := .gone, killDone := s.killDone + 1, stop := s.stop + 1 }
    else none
  | .killLock =>
    if s.toucher = .wantLock ∧ s.main ≠ .locked ∧ s.main ≠ .done then some { s with toucher := .killing, killCalled := true } else none
  | .killCmd =>
    if s.toucher = .killing ∧ s.killDone < 1 then some { s with toucher := .sending, killed := true, killDone := s.killDone + 1 } else none
  | .killSend => if s.toucher = .sending ∧ s.stop < 2 then some { s with toucher := .gone, stop := s.stop + 1 } else none
  | .signal over =>
    if s.checker = .checking then
      some { s with killed := true, ranoutTime := s.ranoutTime || over, signalled := true, closed := true, checker := .finished }
    else none
  | .noSpace =>
    if s.checker = .checking then some { s with killed := true, ranoutDisk := true, closed := true, checker := .finished } else none
  | .usage m d r => if s.checker = .checking then some (usage c m d r s) else none
  | .checkStop =>
    if s.checker = .checking ∧ 0 < s.stop then some { s with stop := s.stop - 1, closed := true, checker := .finished } else none
  | .exit w h =>
    if s.main ≠ .setup ∧ s.exited = none then some { s with exited := some w, held := h } else none
  | .release => if s.held then some { s with held := false } else none
  | .waited =>
    if s.main = .waiting ∧ s.exited.isSome ∧ (s.held = false ∨ s.closed = true) then some { s with main := .stopping } else none
  | .sendStop => if s.main = .stopping ∧ s.stop < 2 then some { s with main := .joining, stop := s.stop + 1 } else none
  | .join => if s.main = .joining ∧ s.checker = .finished then some { s with main := .locking, checker := .gone } else none
  | .lock => if s.main = .locking then some { s with main := .locked } else none
  | .finish =>
    if s.main = .locked ∧ (s.killCalled = true → 0 < s.killDone) then
      some { s with main := .done, killDone := if s.killCalled then s.killDone - 1 else s.killDone }
    else none

def run (c : Cfg) : S → List Ev → Option S
  | s, [] => some s
  | s, e :: es => (step c s e).bind fun s' => run c s' es

/-- what the decision at the end of `Execute` is made on (client.go:1262-1428) -/
def S.ended (s : S) (base : Ended) : Option Ended :=
  s.exited.map fun w => { base with
    wait := w, ranoutMem := s.ranoutMem, ranoutDisk := s.ranoutDisk, signalled := s.signalled, ranoutTime := s.ranoutTime,
    killCalled := s.killCalled }

end Verif.Client.Monitor
