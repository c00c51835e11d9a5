/-
The command line that runners are started with, what the runner makes of it, and finding runners again after the manager was restarted.

The model is of cmd/manager.go:817-823, jobqueue/server.go:792-793 and 2838-2840, scheduler/scheduler.go:359-377, the flags of
cmd/runner.go:279-287 and cmd/root.go:108, scheduler/local.go:55-57, 230-245, 412-498 and scheduler/lsf.go:442-461.

The loop of the runner is that of Verif.Cmd.Runner, the queues of LSF those of Verif.Sched.Lsf and the names of groups those of
Verif.Server.Groups. Simplified: times are in whole seconds (a request's time is a number of half hours, a queue's limit a number of
minutes); characters that have a meaning for a shell outside of quotes, other than the space, make the division into words fail here;
of numbers in arguments, those in base 10 and 8.
-/
import Verif.Server.Groups
import Verif.Sched.Lsf
import Verif.Cmd.Runner
import Verif.Utils.Config

namespace Verif.Server.RunnerCmd
open Verif.Util (split join)
open Verif.Utils.Config (itoa digits)

abbrev Str := List Char

/-! ## Making the command -/

/-- an argument of fmt.Sprintf -/
inductive Arg where
  | str (s : Str)
  | int (n : Int)
deriving DecidableEq

/-- `%d` -/
def showInt (n : Int) : Str := if n < 0 then '-' :: itoa n.natAbs else itoa n.natAbs

/-- fmt.Sprintf, for the verbs `%s`, `%d` and `%%`; `none` is a text with an error like `%!d(string=x)` in it -/
def sprintf : Str → List Arg → Option Str
  | [], [] => some []
  | [], _ :: _ => none
  | c :: f, as =>
    if c ≠ '%' then (sprintf f as).map (c :: ·)
    else match f with
      | [] => none
      | v :: f' =>
        if v = '%' then (sprintf f' as).map ('%' :: ·)
        else match as with
          | .str s :: as' => if v = 's' then (sprintf f' as').map (s ++ ·) else none
          | .int n :: as' => if v = 'd' then (sprintf f' as').map (showInt n ++ ·) else none
          | [] => none

/-- where runners should log to -/
inductive Log where
  | none
  | syslog
  | dir (d : Str)
deriving DecidableEq

/-- manager.go:819-823 -/
def Log.text : Log → Str
  | .none => []
  | .syslog => " --syslog".toList
  | .dir d => " --logdir ".toList ++ d

/-- manager.go:817-823 `runnerCmd`, `s.rc` of the server; `exe` is the path of the manager's executable -/
def template (exe : Str) (log : Log) : Str :=
  exe ++ (" runner -s '%s' --deployment %s --server '%s' --domain %s -r %d -m %d".toList ++ log.text)

/-- what the manager knows of itself -/
structure Info where
  exe : Str
  log : Log
  deployment : Str
  addr : Str
  domain : Str

/-- server.go:2838-2840 `groupToScheduleCmd`; `reserve` is `ReserveTimeout(req)`, `mins` the minutes of `MaxQueueTime(req)` -/
def scheduleCmd (i : Info) (group : Str) (reserve mins : Int) : Option Str :=
  sprintf (template i.exe i.log) [.str group, .str i.deployment, .str i.addr, .str i.domain, .int reserve, .int mins]

/-- server.go:2838-2840, called with the group's name of job.go:878-884 -/
def jobCmd (i : Info) (r : Groups.Printed) (limitGroups : List Str) (reserve mins : Int) : Option Str :=
  scheduleCmd i (Groups.generate r limitGroups) reserve mins

/-- server.go:793: the command of the runner of a job that was running when the manager died -/
def recoverCmd (i : Info) (r : Groups.Printed) (_limitGroups : List Str) (reserve mins : Int) : Option Str :=
  scheduleCmd i (Groups.stringify r) reserve mins

/-! ## Running it: the shell, the flags -/

/-- characters the shell may do something about outside of quotes -/
def special (c : Char) : Bool := c ∈ "\"\\$`;&|<>()*?[]{}~#!=\n\t".toList

/-- the words of a simple command, read by a shell (local.go:813): `cur` is the word so far, if any, `quoted` if it is inside
single quotes. `none` is something other than a simple command, or an error -/
def words : Bool → Option Str → Str → Option (List Str)
  | true, _, [] => none
  | false, cur, [] => some cur.toList
  | true, cur, c :: s => if c = '\'' then words false cur s else words true (some (cur.getD [] ++ [c])) s
  | false, cur, c :: s =>
    if c = '\'' then words true (some (cur.getD [])) s
    else if c = ' ' then (words false none s).map (cur.toList ++ ·)
    else if special c = true then none
    else words false (some (cur.getD [] ++ [c])) s

/-- strconv.ParseInt(s, 0, 64) of pflag, without a sign -/
def readNat (s : Str) : Option Nat :=
  match s with
  | [] => none
  | '0' :: t => digits 8 t
  | s => digits 10 s

/-- strconv.ParseInt(s, 0, 64) of pflag -/
def readInt (s : Str) : Option Int :=
  match s with
  | '-' :: t => (readNat t).map fun (n : Nat) => - (n : Int)
  | '+' :: t => (readNat t).map fun (n : Nat) => (n : Int)
  | s => (readNat s).map fun (n : Nat) => (n : Int)

/-- the variables of runner.go:279-287 and root.go:108 that the command sets -/
structure Opts where
  group : Str := []
  deployment : Str
  server : Str
  domain : Str
  reserve : Int := 2
  max : Int := 0
  syslog : Bool := false
  logdir : Str := []
deriving DecidableEq

/-- pflag, on what follows the name of the sub command. `none` is an error, or another flag -/
def parse : Opts → List Str → Option Opts
  | o, [] => some o
  | o, [a] => if a = "--syslog".toList then some { o with syslog := true } else none
  | o, a :: v :: as =>
    if a = "--syslog".toList then parse { o with syslog := true } (v :: as)
    else if a = "-s".toList then parse { o with group := v } as
    else if a = "--deployment".toList then parse { o with deployment := v } as
    else if a = "--server".toList then parse { o with server := v } as
    else if a = "--domain".toList then parse { o with domain := v } as
    else if a = "--logdir".toList then parse { o with logdir := v } as
    else if a = "-r".toList then (readInt v).bind fun n => parse { o with reserve := n } as
    else if a = "-m".toList then (readInt v).bind fun n => parse { o with max := n } as
    else none

/-- what a command does: the executable that is run, and what it finds its variables set to, if it is run as `runner`; `dflt` are
the values without flags -/
def started (dflt : Opts) (cmd : Str) : Option (Str × Opts) :=
  match words false none cmd with
  | some (exe :: sub :: as) => if sub = "runner".toList then (parse dflt as).map (exe, ·) else none
  | _ => none

/-! ## Times -/

/-- scheduler.go:367-377 `MaxQueueTime`, for what the scheduler's `maxQueueTime` returns -/
def maxQueueTime (impl secs : Nat) : Nat := if impl = 0 then secs + 60 else impl

/-- server.go:2839 `int(….Minutes())` -/
def minutes (secs : Nat) : Nat := secs / 60

/-- local.go:230-240, lsf.go:443-453: `val` is `req.Other["rtimeout"]`, `atoi` strconv.Atoi -/
def reserveTimeout (atoi : Str → Option Int) (val : Option Str) : Int :=
  match val with
  | none => 1
  | some v => (atoi v).getD 1

/-- the argument of `-m` for the local scheduler, and those that build on it: local.go:243-245 -/
def localMins (secs : Nat) : Nat := minutes (maxQueueTime 0 secs)

/-- the argument of `-m` for LSF -/
def lsfMins (all : List Sched.Lsf.Queue) (pref : List Str) (r : Sched.Lsf.Req) : Nat :=
  minutes (maxQueueTime (Sched.Lsf.maxQueueTime all pref r) r.secs)

/-! ## Finding runners again -/

/-- local.go:55-57, 421 -/
def sanitise (cmd : Str) : Str := cmd.filter (· ≠ '\'')

/-- what the process of a command line looks like: its arguments with spaces between them -/
def psLine (cmd : Str) : Option Str := (words false none cmd).map (join ' ')

/-- a process: its number and command line, none if it can't be read -/
structure Proc where
  pid : Nat
  line : Option Str
deriving DecidableEq

/-- what the local scheduler keeps of recovered runners: those seen, those watched with what they hold, the sums in use -/
structure Local where
  seen : List Nat := []
  watched : List (Nat × Nat × Nat) := []
  ram : Nat := 0
  cores : Nat := 0
deriving DecidableEq

/-- local.go:421-496 `recover`, for the processes there are; memory and cores the job asks for -/
def Local.recover (s : Local) (cmd : Str) (ram cores : Nat) : List Proc → Local
  | [] => s
  | p :: ps =>
    if p.line = some (sanitise cmd) then
      if p.pid ∈ s.seen then s.recover cmd ram cores ps
      else { seen := p.pid :: s.seen, watched := (p.pid, ram, cores) :: s.watched, ram := s.ram + ram, cores := s.cores + cores }
    else s.recover cmd ram cores ps

/-- local.go:466-484: a process that was being watched has ended -/
def Local.ended (s : Local) (pid : Nat) : Local :=
  match s.watched.find? (fun w => w.1 = pid) with
  | none => s
  | some w => { s with watched := s.watched.filter (fun x => x.1 ≠ pid), ram := s.ram - w.2.1, cores := s.cores - w.2.2 }

end Verif.Server.RunnerCmd
