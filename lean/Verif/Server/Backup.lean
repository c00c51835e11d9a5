/-!
# Model of the background backup of the job database

`/repo/jobqueue/db.go` 1569-1744: `close`, `backgroundBackup` and
`backupToBackupFile`, with the places that change the database and then ask
for a backup.  Every thread moves from one critical section of the database's
lock to the next, or from one file operation to the next, and the moves of the
threads are interleaved in any way.

Simplified: the content of the database is the number of write transactions
that were committed so far, its version; the path to the backup is local (for
S3 the move to the backup path is an upload); a transaction that is read while
others are committed sees the version at its beginning (bolt's promise);
waiting for running transactions (`db.wg`) is left out, because every call of
`backgroundBackup` comes after its own transaction was committed; `slowBackups`
is for the tests of wr and is left out.
-/
namespace Verif.Server.Backup

/-- What is in a file: a copy that is not finished, or the whole database at
a version.  `/repo/jobqueue/db.go` 1708-1710 (`tx.CopyFile`). -/
inductive Content
  | torn
  | full (v : Nat)
deriving DecidableEq, Repr

/-- Where a thread is.  `c` is true for the thread that closes the database.
`/repo/jobqueue/db.go` 1573-1617, 1625-1690, 1694-1744. -/
inductive Thread
  /-- about to call `backgroundBackup` (544, 762, 783, 1181, 1317, 1685) -/
  | call
  /-- in the `select` at 1645-1650, until the given time -/
  | wait (until_ : Nat)
  /-- before `backupToBackupFile` (1661, 1600) -/
  | start (c : Bool)
  /-- in `tx.CopyFile` (1708-1710), begun at time `t`, reading version `v` -/
  | copying (c : Bool) (t v : Nat)
  /-- before `os.Rename` (1739) -/
  | copied (c : Bool) (t : Nat)
  /-- after `backupToBackupFile`, before the lock at 1663 -/
  | finished (c : Bool) (t : Nat)
  /-- before the send on `backupNotification` (1678) -/
  | notify
  /-- `close` in the receive at 1584 -/
  | closeWait
  /-- `close` before it takes the lock again at 1588 or 1594 -/
  | closeDrain
  /-- ended -/
  | done
deriving DecidableEq, Repr

/-- The fields of `db` that matter here (`/repo/jobqueue/db.go` 109-132), the
two files, the clock in seconds and the threads. -/
structure St where
  now : Nat := 0
  ver : Nat := 0
  file : Option Content := none
  tmp : Option Content := none
  enabled : Bool := true
  closed : Bool := false
  /-- bolt itself is closed (1603) -/
  shut : Bool := false
  backingUp : Bool := false
  queued : Bool := false
  final : Bool := false
  /-- the channel `backupStopWait` is closed -/
  stopWait : Bool := false
  /-- something was sent on `backupNotification` -/
  notified : Bool := false
  last : Option Nat := none
  waitT : Nat := 30
  threads : List Thread := []
deriving DecidableEq, Repr

/-- Thread `i` is now at `t`. -/
def St.at (s : St) (i : Nat) (t : Thread) : St := { s with threads := s.threads.set i t }

/-- `minimumTimeBetweenBackups`, `/repo/jobqueue/db.go` 57. -/
def minGap : Nat := 30

/-- `backgroundBackup` up to the start of the goroutine,
`/repo/jobqueue/db.go` 1625-1637, with the time until which that goroutine
waits, 1640-1645 and 1689. -/
def background (s : St) (i : Nat) : St :=
  if s.closed || !s.enabled then s.at i .done
  else if s.backingUp then { s with queued := true }.at i .done
  else { s with backingUp := true }.at i
    (.wait (match s.last with | none => 0 | some l => l + s.waitT))

/-- The end of the goroutine of `backgroundBackup`,
`/repo/jobqueue/db.go` 1663-1688. -/
def finish (s : St) (i t : Nat) : St :=
  let s := { s with
    backingUp := false, last := some s.now,
    waitT := if s.now - t > minGap then s.now - t else s.waitT }
  if s.final then { s with final := false, stopWait := false }.at i .notify
  else if s.queued then { s with queued := false }.at i .call
  else s.at i .done

/-- One move of thread `i`; `ok` says whether a file operation succeeds.
`none`: there is no such thread or it has to wait.
`/repo/jobqueue/db.go` 1573-1617, 1625-1690, 1694-1744. -/
def move (s : St) (i : Nat) (ok : Bool) : Option St :=
  match s.threads[i]? with
  | some .call => some (background s i)
  | some (.wait u) => if u ≤ s.now || s.stopWait then some (s.at i (.start false)) else none
  | some (.start c) => some ({ s with tmp := some .torn }.at i (.copying c s.now s.ver))
  | some (.copying c t v) =>
    if ok then some ({ s with tmp := some (.full v) }.at i (.copied c t))
    else some ({ s with tmp := none }.at i (.finished c t))
  | some (.copied c t) =>
    match s.tmp with
    | some x =>
      if ok then some ({ s with file := some x, tmp := none }.at i (.finished c t))
      else some (s.at i (.finished c t))
    | none => some (s.at i (.finished c t))
  | some (.finished false t) => some (finish s i t)
  | some (.finished true _) => some ({ s with shut := true }.at i .done)
  | some .notify => some ({ s with notified := true }.at i .done)
  | some .closeWait => if s.notified then some (s.at i .closeDrain) else none
  | some .closeDrain =>
    if s.enabled && s.queued then some (s.at i (.start true))
    else some ({ s with shut := true }.at i .done)
  | some .done => none
  | none => none

/-- `close` up to the first release of its lock, `/repo/jobqueue/db.go`
1573-1590. -/
def close (s : St) : St :=
  if s.closed then s
  else if s.backingUp then
    { s with closed := true, final := true, stopWait := true,
             threads := s.threads ++ [.closeWait] }
  else { s with closed := true, threads := s.threads ++ [.closeDrain] }

/-- What can happen. -/
inductive Ev
  /-- A write transaction is committed; if `asks`, its thread will then call
  `backgroundBackup` (jobs added, archived, deleted, changed or modified:
  `/repo/jobqueue/db.go` 544, 762, 783, 1181, 1317), and if not, it will not
  (the result of a failed run, 1080-1126, limit groups, 371, environments,
  1456). -/
  | commit (asks : Bool)
  | move (i : Nat) (ok : Bool)
  | close
  | tick (d : Nat)
  /-- The process dies and the manager is started again,
  `/repo/jobqueue/db.go` 345-360. -/
  | restart
deriving DecidableEq, Repr

/-- The effect of an event. -/
def step (s : St) : Ev → St
  | .commit asks =>
    if s.shut then s
    else { s with ver := s.ver + 1, threads := if asks then s.threads ++ [.call] else s.threads }
  | .move i ok => (move s i ok).getD s
  | .close => close s
  | .tick d => { s with now := s.now + d }
  | .restart =>
    { s with closed := false, shut := false, backingUp := false, queued := false, final := false,
             stopWait := false, notified := false, last := none, waitT := minGap, threads := [] }

/-- A history. -/
def run (s : St) (evs : List Ev) : St := evs.foldl step s

/-- The manager before its first change: `enabled` in production,
`/repo/jobqueue/db.go` 152-153. -/
def init (enabled : Bool) : St := { enabled }

end Verif.Server.Backup
